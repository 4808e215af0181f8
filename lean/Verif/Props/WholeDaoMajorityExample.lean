import Verif.Props.WholeDaoMajority
import Verif.Props.WholeDaoExample
/-!
# C87: the DAO of two members again

Member 10 holds 60 of 100 and does as they like: they propose message 7, vote yes, and the DAO sends it, though member 11
votes no. With a voting period of zero the same DAO can do nothing at all.
-/

namespace Verif.WholeDao.Example
open Verif Verif.Voting Verif.Spec Verif.Spec.WholeDao Verif.WholeDao

/-- The assumptions of `C87_majority_acts`, as a program, with a creation policy. -/
def readyFor (policy : CreationPolicy) (w : World TokenStaked.World) : Bool :=
  decide (w.core.core.voting = some w.voteAddr) && decide (w.prop.config.dao = w.core.core.me) &&
  decide (w.prop.policy = policy) && decide (w.prop.config.veto = none) && decide (w.prop.count = 0) &&
  decide (tokenStaked.totalWeight w.vote = 100) && decide (tokenStaked.weight w.vote 10 = 60) &&
  decide (w.prop.config.maxVotingPeriod = .height 100) &&
  decide (w.prop.config.threshold = .absolutePercentage .majority) &&
  decide (w.prop.config.onlyMembersExecute = false) && decide (DaoCore.isPaused w.core.core ⟨200, 200⟩ = false) &&
  decide (w.core.stack = []) && (match w.core.core.modules.get w.propAddr with | some m => m.enabled | none => false)

/-- **C87.** Member 10 alone proposes in block 3, votes, and has the DAO send message 7 in block 200. -/
theorem C87_example : ∃ (w w' : World TokenStaked.World) (b : Block)
    (log log' : List (Event TokenStaked.World Block TokenStaked.Call)),
    (sys tokenStaked decode).Reach w b log ∧ Steady log ∧ log.length = 2 ∧
    (sys tokenStaked decode).Run w b log' w' ⟨200, 200⟩ ∧
    log'.map (fun ev => (ev.env, ev.call)) = [(env 200 99, .prop (.execute 1 false)), (env 3 10, .prop (.vote 1 .yes none)),
      (env 3 10, .prop (.propose none 0 [7] none true))] ∧
    w'.core.stack = [.send (.toSelf (.executeAdminMsgs [.other 9]))] := by
  obtain ⟨w, b, log, hr, hp⟩ := Sys.check_run (M := sys tokenStaked decode) (s := w0) (b := ⟨1, 1⟩)
    (cs := calls.take 2) (p := fun w b log => fine log && readyFor .anyone w && decide (b = ⟨2, 2⟩) && decide (log.length = 2))
    (by decide +kernel)
  simp only [Bool.and_eq_true, decide_eq_true_eq] at hp
  obtain ⟨⟨⟨hf, hd⟩, rfl⟩, hlen⟩ := hp
  have hst : Steady log := by
    simp only [Bool.and_eq_true, decide_eq_true_eq, fine, List.all_eq_true] at hf
    exact fun e he => ⟨(hf e he).1.1.1, (hf e he).1.1.2⟩
  simp only [readyFor, Bool.and_eq_true, decide_eq_true_eq] at hd
  obtain ⟨⟨⟨⟨⟨⟨⟨⟨⟨⟨⟨⟨h1, h2⟩, h3⟩, h4⟩, h5⟩, h6⟩, h7⟩, h8⟩, h9⟩, h10⟩, h11⟩, h12⟩, h13⟩ := hd
  have hen : DaoCore.Enabled w.core.core w.propAddr := by
    split at h13
    · rename_i m hm; exact ⟨m, hm, h13⟩
    · cases h13
  obtain ⟨w', log', hr', hl, _, hstk⟩ := C87_majority_acts C80_token_staked (decode := decode) ⟨_, _, init, hr⟩ hst ⟨h1, h2⟩ h3
    h4 (by rw [h5]; decide +kernel) (by rw [h6]; decide +kernel) (e := env 3 10) ⟨by decide, by decide⟩ (by decide) rfl
    (by rw [h8]; decide) (ys := [10]) (by simp) (by simp [h7]) (by rw [h6, h9]; simp [h7, ShouldPass, Meets])
    (f := env 200 99) ⟨by decide, by decide⟩ (by rw [h8]; decide) (by rw [h10]; simp) h11 hen 0 [7]
  refine ⟨w, w', _, log, log', ⟨_, _, init, hr⟩, hst, hlen, hr', ?_, ?_⟩
  · rw [hl, h5]; rfl
  · rw [hstk, h12]; rfl

/-- The assumptions of `C87_unstoppable`, as a program. -/
def standing (w : World TokenStaked.World) (log : List (Event TokenStaked.World Block TokenStaked.Call)) : Bool :=
  decide (w.core.core.voting = some w.voteAddr) && decide (w.prop.config.dao = w.core.core.me) &&
  (match w.prop.proposals.get 1 with
    | some p => decide (p.veto = none) && decide (p.msgs = [7]) && decide (p.threshold = .absolutePercentage .majority) &&
        decide (p.startHeight = 5) && decide (p.expiration.isExpired ⟨200, 200⟩ = true)
    | none => false) &&
  decide (lastVote 10 1 (propLog tokenStaked log) = some .yes) &&
  decide (lastVote 11 1 (propLog tokenStaked log) = some .no) &&
  decide (tokenStaked.total w.vote 5 = 100) && decide (tokenStaked.power w.vote 10 5 = 60) &&
  decide (w.prop.config.onlyMembersExecute = false) && decide (DaoCore.isPaused w.core.core ⟨200, 200⟩ = false) &&
  (match w.core.core.modules.get w.propAddr with | some m => m.enabled | none => false)

/-- **C87.** Member 10 stands by their yes, member 11 voted no: the assumptions of `C87_unstoppable` are met. -/
theorem C87_example_unstoppable : ∃ (w : World TokenStaked.World) (b : Block)
    (log : List (Event TokenStaked.World Block TokenStaked.Call)) (p : Single.Proposal),
    (sys tokenStaked decode).Reach w b log ∧ Steady log ∧ w.core.core.voting = some w.voteAddr ∧
    w.prop.config.dao = w.core.core.me ∧ w.prop.proposals.get 1 = some p ∧ p.veto = none ∧ p.msgs = [7] ∧
    lastVote 10 1 (propLog tokenStaked log) = some .yes ∧ lastVote 11 1 (propLog tokenStaked log) = some .no ∧
    Decisive p.threshold (tokenStaked.total w.vote p.startHeight) (powerOf tokenStaked w.vote p.startHeight [10]) ∧
    p.expiration.isExpired ⟨200, 200⟩ = true ∧ w.prop.config.onlyMembersExecute = false ∧
    DaoCore.isPaused w.core.core ⟨200, 200⟩ = false ∧ DaoCore.Enabled w.core.core w.propAddr := by
  obtain ⟨w, b, log, hr, hp⟩ := Sys.check_run (M := sys tokenStaked decode) (s := w0) (b := ⟨1, 1⟩)
    (cs := calls.take 6) (p := fun w b log => fine log && standing w log) (by decide +kernel)
  simp only [Bool.and_eq_true, decide_eq_true_eq] at hp
  obtain ⟨hf, hd⟩ := hp
  have hst : Steady log := by
    simp only [Bool.and_eq_true, decide_eq_true_eq, fine, List.all_eq_true] at hf
    exact fun e he => ⟨(hf e he).1.1.1, (hf e he).1.1.2⟩
  simp only [standing, Bool.and_eq_true, decide_eq_true_eq] at hd
  obtain ⟨⟨⟨⟨⟨⟨⟨⟨⟨h1, h2⟩, h3⟩, h4⟩, h5⟩, h6⟩, h7⟩, h8⟩, h9⟩, h10⟩ := hd
  have hen : DaoCore.Enabled w.core.core w.propAddr := by
    split at h10
    · rename_i m hm; exact ⟨m, hm, h10⟩
    · cases h10
  cases hg : w.prop.proposals.get 1 with
  | none => rw [hg] at h3; cases h3
  | some p =>
    rw [hg] at h3
    simp only [Bool.and_eq_true, decide_eq_true_eq] at h3
    obtain ⟨⟨⟨⟨p1, p2⟩, p3⟩, p4⟩, p5⟩ := h3
    refine ⟨w, b, log, p, ⟨_, _, init, hr⟩, hst, h1, h2, hg, p1, p2, h4, h5, ?_, p5, h8, h9, hen⟩
    rw [p3, p4, h6]
    simp only [powerOf, List.map_cons, List.map_nil, List.sum_cons, List.sum_nil, h7]
    exact C87_half_decides (by decide)

/-- The same DAO with a voting period of zero. -/
def wz : World TokenStaked.World :=
  { w0 with prop := { prop0 with config := { prop0.config with maxVotingPeriod := .height 0 } } }

theorem init_zero : Init tokenStaked ⟨1, 1⟩ wz := by
  obtain ⟨h1, h2, h3, _⟩ := init
  exact ⟨h1, h2, h3, ⟨⟨1, 1⟩, 1, fun _ _ _ => 0, fun _ _ => 0, true⟩, wz.prop.config, .anyoneMayPropose, ⟨[], none⟩,
    rfl, rfl, by decide +kernel⟩

/-- **C87.** The contract accepts a voting period of zero, members stake, somebody proposes, and the proposal is rejected
from the start: nobody can vote on it, in no block. -/
theorem C87_witness_zero : ∃ (w : World TokenStaked.World) (b : Block)
    (log : List (Event TokenStaked.World Block TokenStaked.Call)),
    Init tokenStaked ⟨1, 1⟩ wz ∧ (sys tokenStaked decode).Run wz ⟨1, 1⟩ log w b ∧ tokenStaked.weight w.vote 10 = 60 ∧
    (w.prop.proposals.get 1).map (·.status) = some .rejected ∧
    ∀ (f : Env) (v : Vote) (r : Option Nat), b.le f.block →
      ¬ ∃ x, (sys tokenStaked decode).step w f (.prop (.vote 1 v r)) = .ok x := by
  obtain ⟨w, b, log, hr, hp⟩ := Sys.check_run (M := sys tokenStaked decode) (s := wz) (b := ⟨1, 1⟩)
    (cs := calls.take 2 ++ [(env 5 10, .prop (.propose none 0 [7] none true))])
    (p := fun w b log => decide (b = ⟨5, 5⟩) && decide (tokenStaked.weight w.vote 10 = 60) &&
      decide ((w.prop.proposals.get 1).map (·.status) = some .rejected) &&
      match log with
      | ev :: _ => decide (ev.pre.prop.config.maxVotingPeriod = .height 0) && decide (ev.pre.prop.count = 0) &&
        (match ev.call with | .prop (.propose _ _ _ _ _) => true | _ => false)
      | [] => false) (by decide +kernel)
  simp only [Bool.and_eq_true, decide_eq_true_eq] at hp
  obtain ⟨⟨⟨rfl, h1⟩, h2⟩, h3⟩ := hp
  refine ⟨w, _, log, init_zero, hr, h1, h2, ?_⟩
  intro f v r hf
  generalize hbb : (⟨5, 5⟩ : Block) = bb at hr hf
  cases hr with
  | refl => cases h3
  | @step s1 _ b1 before env' call out hr hb hs =>
    simp only [Bool.and_eq_true, decide_eq_true_eq] at h3
    obtain ⟨⟨hz, hc⟩, hcall⟩ := h3
    split at hcall
    · rename_i g content msgs vote z
      have := (C87_zero_period (decode := decode) ⟨_, _, init_zero, hr⟩ (Or.inl hz) hb hs .refl hf v r).2
      rw [hc] at this
      exact this
    · cases hcall

end Verif.WholeDao.Example
