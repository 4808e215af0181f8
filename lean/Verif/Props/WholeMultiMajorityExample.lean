import Verif.Props.WholeMultiMajority
import Verif.Props.WholeMultiExample
/-!
# C104: the DAO of two members again, with options to choose from

Member 10 holds 60 of 100 and does as they like: they propose two options, vote for the first, and the DAO sends its
message, though member 11 votes for the second. With a voting period of zero the same DAO can do nothing at all.
-/

namespace Verif.WholeMulti.Example
open Verif
open Verif.Voting hiding Vote Votes
open Verif.Spec.WholeMulti Verif.WholeMulti
open Verif.Spec.Multi (lastVote)
open Verif.Spec hiding StablePowers isExecuteOf isExecuteOnDao lastVote ballotCast
open Verif.WholeDao (tokenStaked)

/-- The assumptions of `C104_majority_acts`, as a program. -/
def ready (w : World TokenStaked.World) : Bool :=
  decide (w.core.core.voting = some w.voteAddr) && decide (w.prop.config.dao = w.core.core.me) &&
  decide (w.prop.policy = .anyone) && decide (w.prop.config.veto = none) && decide (w.prop.count = 0) &&
  decide (tokenStaked.totalWeight w.vote = 100) && decide (tokenStaked.weight w.vote 10 = 60) &&
  decide (w.prop.config.maxVotingPeriod = .height 100) && decide (w.prop.config.quorum = .majority) &&
  decide (w.prop.config.onlyMembersExecute = false) && decide (DaoCore.isPaused w.core.core ⟨200, 200⟩ = false) &&
  decide (w.core.stack = []) && (match w.core.core.modules.get w.propAddr with | some m => m.enabled | none => false)

/-- **C104.** Member 10 alone proposes in block 3, votes, and has the DAO send message 7 in block 200. -/
theorem C104_example : ∃ (w w' : World TokenStaked.World) (b : Block)
    (log log' : List (Event TokenStaked.World Block TokenStaked.Call)),
    (sys tokenStaked tokenStakedNow decode).Reach w b log ∧ Steady log ∧ log.length = 2 ∧
    (sys tokenStaked tokenStakedNow decode).Run w b log' w' ⟨200, 200⟩ ∧
    log'.map (fun ev => (ev.env, ev.call)) = [(env 200 99, .prop (.execute 1 false)), (env 3 10, .prop (.vote 1 0 none)),
      (env 3 10, .prop (.propose none 0 [(0, [7]), (1, [8])] none true))] ∧
    w'.core.stack = [.send (.toSelf (.executeAdminMsgs [.other 9]))] := by
  obtain ⟨w, b, log, hr, hp⟩ := Sys.check_run (M := sys tokenStaked tokenStakedNow decode) (s := dao vote0) (b := ⟨1, 1⟩)
    (cs := calls.take 2) (p := fun w b log => fine log && ready w && decide (b = ⟨2, 2⟩) && decide (log.length = 2))
    (by decide +kernel)
  simp only [Bool.and_eq_true, decide_eq_true_eq] at hp
  obtain ⟨⟨⟨hf, hd⟩, rfl⟩, hlen⟩ := hp
  have hst := fine_steady hf
  have hreach : (sys tokenStaked tokenStakedNow decode).Reach w ⟨2, 2⟩ log := ⟨_, _, init vote0_init, hr⟩
  simp only [ready, Bool.and_eq_true, decide_eq_true_eq] at hd
  obtain ⟨⟨⟨⟨⟨⟨⟨⟨⟨⟨⟨⟨h1, h2⟩, h3⟩, h4⟩, h5⟩, h6⟩, h7⟩, h8⟩, h9⟩, h10⟩, h11⟩, h12⟩, h13⟩ := hd
  have hen : DaoCore.Enabled w.core.core w.propAddr := by
    split at h13
    · rename_i m hm; exact ⟨m, hm, h13⟩
    · cases h13
  obtain ⟨w', log', hr', hl, _, hstk⟩ := C104_majority_acts C81_token_staked.1 (decode := decode) hreach hst ⟨h1, h2⟩ h3
    h4 (by rw [h5]; decide +kernel) (by rw [h6]; decide +kernel) (e := env 3 10) ⟨by decide, by decide⟩ (by decide) rfl
    (C104_new_total C81_token_staked.1 (Or.inl C81_token_staked.2) hreach ⟨by decide, by decide⟩ (by decide))
    (by rw [h8]; decide) (ys := [10]) (by simp) (by simp [h7])
    (by rw [h6, h9]; exact C104_half_decides (by simp [h7]) (by simp [h7, Meets]))
    (f := env 200 99) ⟨by decide, by decide⟩ (by rw [h8]; decide) (by rw [h10]; simp) h11 hen 0
    (options := [(0, [7]), (1, [8])]) (by decide) (by decide) (i := 0) rfl
  refine ⟨w, w', _, log, log', hreach, hst, hlen, hr', ?_, ?_⟩
  · rw [hl, h5]; rfl
  · rw [hstk, h12]; rfl

/-- The assumptions of `C104_unstoppable`, as a program. -/
def standing (w : World TokenStaked.World) (log : List (Event TokenStaked.World Block TokenStaked.Call)) : Bool :=
  decide (w.core.core.voting = some w.voteAddr) && decide (w.prop.config.dao = w.core.core.me) &&
  (match w.prop.proposals.get 1 with
    | some p => decide (p.veto = none) && decide (p.choices.map (·.msgs) = [[7], [8], []]) &&
        decide (p.quorum = .majority) && decide (p.startHeight = 5) && decide (p.totalPower = 100) &&
        decide (p.expiration.isExpired ⟨200, 200⟩ = true)
    | none => false) &&
  decide (lastVote 10 1 (propLog tokenStaked tokenStakedNow log) = some 0) &&
  decide (lastVote 11 1 (propLog tokenStaked tokenStakedNow log) = some 1) &&
  decide (tokenStaked.total w.vote 5 = 100) && decide (tokenStaked.power w.vote 10 5 = 60) &&
  decide (w.prop.config.onlyMembersExecute = false) && decide (DaoCore.isPaused w.core.core ⟨200, 200⟩ = false) &&
  (match w.core.core.modules.get w.propAddr with | some m => m.enabled | none => false)

/-- **C104.** Member 10 stands by the first option, member 11 voted for the second: the assumptions of
`C104_unstoppable` are met. -/
theorem C104_example_unstoppable : ∃ (w : World TokenStaked.World) (b : Block)
    (log : List (Event TokenStaked.World Block TokenStaked.Call)) (p : Multiple.Proposal),
    (sys tokenStaked tokenStakedNow decode).Reach w b log ∧ Steady log ∧
    w.core.core.voting = some w.voteAddr ∧ w.prop.config.dao = w.core.core.me ∧ w.prop.proposals.get 1 = some p ∧
    p.totalPower = tokenStaked.total w.vote p.startHeight ∧ p.veto = none ∧ p.choices.map (·.msgs) = [[7], [8], []] ∧
    lastVote 10 1 (propLog tokenStaked tokenStakedNow log) = some 0 ∧
    lastVote 11 1 (propLog tokenStaked tokenStakedNow log) = some 1 ∧
    Decisive p.quorum (tokenStaked.total w.vote p.startHeight) (powerOf tokenStaked w.vote p.startHeight [10]) ∧
    p.expiration.isExpired ⟨200, 200⟩ = true ∧ w.prop.config.onlyMembersExecute = false ∧
    DaoCore.isPaused w.core.core ⟨200, 200⟩ = false ∧ DaoCore.Enabled w.core.core w.propAddr := by
  obtain ⟨w, b, log, hr, hp⟩ := Sys.check_run (M := sys tokenStaked tokenStakedNow decode) (s := dao vote0) (b := ⟨1, 1⟩)
    (cs := calls.take 6) (p := fun w b log => fine log && standing w log) (by decide +kernel)
  simp only [Bool.and_eq_true] at hp
  obtain ⟨hf, hd⟩ := hp
  have hst := fine_steady hf
  have hreach : (sys tokenStaked tokenStakedNow decode).Reach w b log := ⟨_, _, init vote0_init, hr⟩
  simp only [standing, Bool.and_eq_true, decide_eq_true_eq] at hd
  obtain ⟨⟨⟨⟨⟨⟨⟨⟨⟨h1, h2⟩, h3⟩, h4⟩, h5⟩, h6⟩, h7⟩, h8⟩, h9⟩, h10⟩ := hd
  have hen : DaoCore.Enabled w.core.core w.propAddr := by
    split at h10
    · rename_i m hm; exact ⟨m, hm, h10⟩
    · cases h10
  cases hg : w.prop.proposals.get 1 with
  | none => rw [hg] at h3; cases h3
  | some p =>
    rw [hg] at h3
    simp only [Bool.and_eq_true, decide_eq_true_eq] at h3
    obtain ⟨⟨⟨⟨⟨p1, p2⟩, p3⟩, p4⟩, p6⟩, p5⟩ := h3
    refine ⟨w, b, log, p, hreach, hst, h1, h2, hg, by rw [p4, p6, h6], p1, p2, h4, h5, ?_, p5, h8, h9, hen⟩
    rw [p3, p4, h6]
    simp only [powerOf, List.map_cons, List.map_nil, List.sum_cons, List.sum_nil, h7]
    exact C104_half_decides (by decide) (by simp [Meets])

/-- The same DAO with a voting period of zero. -/
def daoZero : World TokenStaked.World :=
  { dao vote0 with prop := { prop0 with config := { prop0.config with maxVotingPeriod := .height 0 } } }

theorem init_zero : Init tokenStaked ⟨1, 1⟩ daoZero := by
  obtain ⟨h1, h2, h3, _⟩ := init vote0_init
  exact ⟨h1, h2, h3, ⟨⟨1, 1⟩, 1, fun _ _ _ => 0, fun _ => 0, true⟩, daoZero.prop.config, .anyoneMayPropose, ⟨[], none⟩,
    rfl, rfl, by decide +kernel⟩

/-- **C104.** The contract accepts a voting period of zero, members stake, somebody proposes, and the proposal is rejected
from the start: nobody can vote on it, in no block. -/
theorem C104_witness_zero : ∃ (w : World TokenStaked.World) (b : Block)
    (log : List (Event TokenStaked.World Block TokenStaked.Call)),
    Init tokenStaked ⟨1, 1⟩ daoZero ∧ (sys tokenStaked tokenStakedNow decode).Run daoZero ⟨1, 1⟩ log w b ∧
    tokenStaked.weight w.vote 10 = 60 ∧ (w.prop.proposals.get 1).map (·.status) = some .rejected ∧
    ∀ (f : Env) (v : Nat) (r : Option Nat), b.le f.block →
      ¬ ∃ x, (sys tokenStaked tokenStakedNow decode).step w f (.prop (.vote 1 v r)) = .ok x := by
  obtain ⟨w, b, log, hr, hp⟩ := Sys.check_run (M := sys tokenStaked tokenStakedNow decode) (s := daoZero) (b := ⟨1, 1⟩)
    (cs := calls.take 2 ++ [(env 5 10, .prop (.propose none 0 [(0, [7]), (1, [8])] none true))])
    (p := fun w b log => decide (b = ⟨5, 5⟩) && decide (tokenStaked.weight w.vote 10 = 60) &&
      decide ((w.prop.proposals.get 1).map (·.status) = some .rejected) &&
      match log with
      | ev :: _ => decide (ev.pre.prop.config.maxVotingPeriod = .height 0) && decide (ev.pre.prop.count = 0) &&
        (match ev.call with | .prop (.propose _ _ _ _ _) => true | _ => false)
      | [] => false) (by decide +kernel)
  simp only [Bool.and_eq_true, decide_eq_true_eq] at hp
  obtain ⟨⟨⟨rfl, h1⟩, h2⟩, h3⟩ := hp
  refine ⟨w, _, log, init_zero, hr, h1, h2, ?_⟩
  intro f v r hf
  generalize hbb : (⟨5, 5⟩ : Block) = bb at hr hf
  cases hr with
  | refl => cases h3
  | @step s1 _ b1 before env' call out hr hb hs =>
    simp only [Bool.and_eq_true, decide_eq_true_eq] at h3
    obtain ⟨⟨hz, hc⟩, hcall⟩ := h3
    split at hcall
    · rename_i g content msgs vote z
      have := (C104_zero_period (decode := decode) ⟨_, _, init_zero, hr⟩ (Or.inl hz) hb hs .refl hf v r).2
      rw [hc] at this
      exact this
    · cases hcall

end Verif.WholeMulti.Example
