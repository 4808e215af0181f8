import Verif.Props.WholeCondorcetMajority
import Verif.Props.WholeCondorcetExample
/-!
# C105: the DAO of three members again

Members 10 and 11 hold 75 of 100 and do as they like: 12 proposes two options, 10 and 11 rank the second first, and the
DAO sends its message, all in one block. With a voting period of zero the same DAO can do nothing at all.
-/

namespace Verif.WholeCondorcet.Example
open Verif
open Verif.Voting hiding Vote Votes
open Verif.Spec.WholeCondorcet Verif.WholeCondorcet
open Verif.Spec.Condorcet (IsRanking)
open Verif.Spec hiding StablePowers isExecuteOf isExecuteOnDao lastVote ballotCast
open Verif.WholeDao (tokenStaked)

/-- The assumptions of `C105_majority_acts`, as a program. -/
def ready (w : World TokenStaked.World) : Bool :=
  decide (w.core.core.voting = some w.voteAddr) && decide (Condorcet.top w.prop = 0) &&
  decide (tokenStaked.totalWeight w.vote = 100) && decide (tokenStaked.weight w.vote 10 = 40) &&
  decide (tokenStaked.weight w.vote 11 = 35) && decide (tokenStaked.weight w.vote 12 = 25) &&
  decide (w.prop.config = config0) && decide (DaoCore.isPaused w.core.core ⟨3, 3⟩ = false) &&
  decide (w.core.stack = []) && (match w.core.core.modules.get w.propAddr with | some m => m.enabled | none => false)

def rankings3 (a : Addr) : List Nat := if a = 10 then [1, 0, 2] else [1, 2, 0]

theorem ranking_ok {r : List Nat} (hn : r.Nodup) (h : (∀ c ∈ r, c < 3) ∧ ∀ c < 3, c ∈ r) : IsRanking 3 r :=
  ⟨hn, fun c => ⟨h.1 c, h.2 c⟩⟩

/-- **C105.** In block 3 member 12 proposes, 10 and 11 vote, and 12 has the DAO send message 7. -/
theorem C105_example : ∃ (w w' : World TokenStaked.World) (b : Block)
    (log log' : List (Event TokenStaked.World Block TokenStaked.Call)),
    (sys tokenStaked tokenStakedNow decode).Reach w b log ∧ Steady log ∧ log.length = 3 ∧
    (sys tokenStaked tokenStakedNow decode).Run w b log' w' ⟨3, 3⟩ ∧
    log'.map (fun ev => (ev.env, ev.call)) = [(env 3 12, .prop (.execute 1 false)), (env 3 11, .prop (.vote 1 [1, 2, 0])),
      (env 3 10, .prop (.vote 1 [1, 0, 2])), (env 3 12, .prop (.propose [[8], [7]]))] ∧
    w'.core.stack = [.send (.toSelf (.executeAdminMsgs [.other 9]))] := by
  obtain ⟨w, b, log, hr, hp⟩ := Sys.check_run (M := sys tokenStaked tokenStakedNow decode) (s := dao vote0) (b := ⟨1, 1⟩)
    (cs := calls.take 3) (p := fun w b log => fine log && ready w && decide (b = ⟨2, 2⟩) && decide (log.length = 3))
    (by decide +kernel)
  simp only [Bool.and_eq_true, decide_eq_true_eq] at hp
  obtain ⟨⟨⟨hf, hd⟩, rfl⟩, hlen⟩ := hp
  have hst := fine_steady hf
  have hreach : (sys tokenStaked tokenStakedNow decode).Reach w ⟨2, 2⟩ log := ⟨_, _, init vote0_init, hr⟩
  simp only [ready, Bool.and_eq_true, decide_eq_true_eq] at hd
  obtain ⟨⟨⟨⟨⟨⟨⟨⟨⟨h1, h2⟩, h3⟩, h4⟩, h5⟩, h6⟩, h7⟩, h8⟩, h9⟩, h10⟩ := hd
  have hen : DaoCore.Enabled w.core.core w.propAddr := by
    split at h10
    · rename_i m hm; exact ⟨m, hm, h10⟩
    · cases h10
  obtain ⟨hn1, hn2⟩ := C105_new_total C94_token_staked.1 (Or.inl C94_token_staked.2) hreach (b' := ⟨3, 3⟩)
    ⟨by decide, by decide⟩ (by decide)
  obtain ⟨w', log', hr', hl, _, hstk⟩ := C105_majority_acts C94_token_staked.1 (decode := decode) hreach hst h1
    (by rw [h2]; decide +kernel) (by rw [h3]; decide +kernel) (e := env 3 12) ⟨by decide, by decide⟩ (by decide)
    ⟨hn1, hn2 12⟩ (by rw [h7]; decide) (show tokenStaked.weight w.vote 12 ≠ 0 by rw [h6]; decide)
    (ys := [10, 11]) (by simp) (by simp [h4, h5]) (by simp [h3, h4, h5]) (by simp [h3, h4, h5, h7, config0, Meets])
    (f := env 3 12) (Block.le_refl _) (by rw [h7]; simp [config0])
    (show tokenStaked.weight w.vote 12 ≠ 0 by rw [h6]; decide) h8 hen
    (options := [[8], [7]]) (by decide) (i := 1) rfl (ranking := rankings3) (by
      intro a ha
      simp only [List.mem_cons, List.not_mem_nil, or_false] at ha
      rcases ha with ha | ha <;> rw [ha]
      · exact ⟨ranking_ok (by decide) (by decide), rfl⟩
      · exact ⟨ranking_ok (by decide) (by decide), rfl⟩)
  refine ⟨w, w', _, log, log', hreach, hst, hlen, hr', ?_, ?_⟩
  · rw [hl, h2]; rfl
  · rw [hstk, h9]; rfl

/-- The assumptions of `C105_unstoppable`, as a program. -/
def standing (w : World TokenStaked.World) (log : List (Event TokenStaked.World Block TokenStaked.Call)) : Bool :=
  decide (w.core.core.voting = some w.voteAddr) &&
  (match w.prop.proposals.get 1, w.prop.tallies.get 1 with
    | some p, some t => decide (p.choices = [[8], [7], []]) && decide (p.minVotingPeriod = none) &&
        decide (p.quorum = .majority) && decide (t.startHeight = 5) && decide (p.totalPower = 100)
    | _, _ => false) &&
  decide (votesOn 1 log = [(12, [2, 1, 0]), (10, [0, 1, 2]), (11, [0, 2, 1])]) &&
  decide (tokenStaked.total w.vote 5 = 100) && decide (tokenStaked.power w.vote 10 5 = 40) &&
  decide (tokenStaked.power w.vote 11 5 = 35) && decide (tokenStaked.power w.vote 12 5 = 25) &&
  decide (DaoCore.isPaused w.core.core ⟨7, 7⟩ = false) &&
  (match w.core.core.modules.get w.propAddr with | some m => m.enabled | none => false)

/-- **C105.** Members 10 and 11 rank the first option first, member 12 last: the assumptions of `C105_unstoppable` are
met. -/
theorem C105_example_unstoppable : ∃ (w : World TokenStaked.World) (b : Block)
    (log : List (Event TokenStaked.World Block TokenStaked.Call)) (p : Condorcet.Proposal) (t : Condorcet.Tally),
    (sys tokenStaked tokenStakedNow decode).Reach w b log ∧ Steady log ∧
    w.core.core.voting = some w.voteAddr ∧ w.prop.proposals.get 1 = some p ∧ w.prop.tallies.get 1 = some t ∧
    p.totalPower = tokenStaked.total w.vote t.startHeight ∧ 0 < p.choices.length ∧
    (∀ a ∈ [10, 11], ∃ r, (a, r) ∈ votesOn 1 log ∧ r.head? = some 0) ∧ (12, [2, 1, 0]) ∈ votesOn 1 log ∧
    tokenStaked.total w.vote t.startHeight < 2 * ([10, 11].map (fun a => tokenStaked.power w.vote a t.startHeight)).sum ∧
    Meets ([10, 11].map (fun a => tokenStaked.power w.vote a t.startHeight)).sum (tokenStaked.total w.vote t.startHeight)
      p.quorum ∧
    (∀ m, p.minVotingPeriod = some m → m.isExpired ⟨7, 7⟩ = true) ∧ tokenStaked.power w.vote 12 t.startHeight ≠ 0 ∧
    DaoCore.isPaused w.core.core ⟨7, 7⟩ = false ∧ DaoCore.Enabled w.core.core w.propAddr := by
  obtain ⟨w, b, log, hr, hp⟩ := Sys.check_run (M := sys tokenStaked tokenStakedNow decode) (s := dao vote0) (b := ⟨1, 1⟩)
    (cs := calls.take 5 ++ [(env 6 12, .prop (.vote 1 [2, 1, 0])), (env 6 10, .prop (.vote 1 [0, 1, 2])),
      (env 6 11, .prop (.vote 1 [0, 2, 1]))]) (p := fun w b log => fine log && standing w log) (by decide +kernel)
  simp only [Bool.and_eq_true] at hp
  obtain ⟨hf, hd⟩ := hp
  have hst := fine_steady hf
  have hreach : (sys tokenStaked tokenStakedNow decode).Reach w b log := ⟨_, _, init vote0_init, hr⟩
  simp only [standing, Bool.and_eq_true, decide_eq_true_eq] at hd
  obtain ⟨⟨⟨⟨⟨⟨⟨⟨h1, h3⟩, h4⟩, h5⟩, h6⟩, h7⟩, h8⟩, h9⟩, h10⟩ := hd
  have hen : DaoCore.Enabled w.core.core w.propAddr := by
    split at h10
    · rename_i m hm; exact ⟨m, hm, h10⟩
    · cases h10
  split at h3
  · rename_i p t hp ht
    simp only [Bool.and_eq_true, decide_eq_true_eq] at h3
    obtain ⟨⟨⟨⟨p1, p2⟩, p3⟩, p4⟩, p5⟩ := h3
    refine ⟨w, b, log, p, t, hreach, hst, h1, hp, ht, by rw [p4, p5, h5], by rw [p1]; decide, ?_, by rw [h4]; simp, ?_, ?_, ?_, ?_, h9, hen⟩
    · rw [h4]; simp
    · rw [p4, h5]; simp [h6, h7]
    · rw [p4, h5, p3]; simp [h6, h7, Meets]
    · rw [p2]; simp
    · rw [p4, h8]; decide
  · cases h3

/-- The same DAO with a voting period of zero. -/
def daoZero : World TokenStaked.World :=
  { dao vote0 with prop := { prop0 with config := { config0 with votingPeriod := .height 0 } } }

theorem init_zero : Init tokenStaked ⟨1, 1⟩ daoZero := by
  obtain ⟨h1, h2, h3, _⟩ := init vote0_init
  exact ⟨h1, h2, h3, ⟨⟨1, 1⟩, 1, fun _ _ _ => 0, fun _ _ => 0, fun _ => 0⟩, daoZero.prop.config,
    rfl, rfl, by decide +kernel⟩

/-- **C105.** The contract accepts a voting period of zero, members stake, somebody proposes, and the proposal is rejected
from the start: nobody can vote on it, in no block. -/
theorem C105_witness_zero : ∃ (w : World TokenStaked.World) (b : Block)
    (log : List (Event TokenStaked.World Block TokenStaked.Call)),
    Init tokenStaked ⟨1, 1⟩ daoZero ∧ (sys tokenStaked tokenStakedNow decode).Run daoZero ⟨1, 1⟩ log w b ∧
    tokenStaked.weight w.vote 10 = 40 ∧ (w.prop.proposals.get 1).map (·.lastStatus) = some .rejected ∧
    ∀ (f : Env) (r : List Nat), b.le f.block →
      ¬ ∃ x, (sys tokenStaked tokenStakedNow decode).step w f (.prop (.vote 1 r)) = .ok x := by
  obtain ⟨w, b, log, hr, hp⟩ := Sys.check_run (M := sys tokenStaked tokenStakedNow decode) (s := daoZero) (b := ⟨1, 1⟩)
    (cs := calls.take 3 ++ [(env 5 10, .prop (.propose [[8], [7]]))])
    (p := fun w b log => decide (b = ⟨5, 5⟩) && decide (tokenStaked.weight w.vote 10 = 40) &&
      decide ((w.prop.proposals.get 1).map (·.lastStatus) = some .rejected) &&
      match log with
      | ev :: _ => decide (ev.pre.prop.config.votingPeriod = .height 0) && decide (Condorcet.top ev.pre.prop = 0) &&
        (match ev.call with | .prop (.propose _) => true | _ => false)
      | [] => false) (by decide +kernel)
  simp only [Bool.and_eq_true, decide_eq_true_eq] at hp
  obtain ⟨⟨⟨rfl, h1⟩, h2⟩, h3⟩ := hp
  refine ⟨w, _, log, init_zero, hr, h1, h2, ?_⟩
  intro f r hf
  generalize hbb : (⟨5, 5⟩ : Block) = bb at hr hf
  cases hr with
  | refl => cases h3
  | @step s1 _ b1 before env' call out hr hb hs =>
    simp only [Bool.and_eq_true, decide_eq_true_eq] at h3
    obtain ⟨⟨hz, hc⟩, hcall⟩ := h3
    split at hcall
    · have := C105_zero_period (decode := decode) ⟨_, _, init_zero, hr⟩ (Or.inl hz) hb hs .refl hf r
      rw [hc] at this
      exact this
    · cases hcall

end Verif.WholeCondorcet.Example
