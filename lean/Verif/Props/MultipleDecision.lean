import Verif.Proofs.MultipleDecision
import Verif.Props.Threshold
/-!
# C19, C20: the outcome of a multiple choice proposal

`isPassed`, `isRejected`, `voteResult` and `currentStatus` are the model of the functions behind every
status a user sees. A continuation of the voting is any later tally within the total power.
`Proposal.Shape` (one weight per option, at least three options, numbered, the last one "none of the
above") holds of every proposal the contract records: `C18_shape`.
-/

namespace Verif.Multiple
open Verif
open Verif.Voting hiding Vote Votes
open Verif.Spec Verif.Spec.Multi

theorem sane_of {p : Proposal} (hq : validateQuorum p.quorum = .ok ()) (hs : p.Shape)
    (hu : p.totalPower < U128) (hfit : castTotal p.votes ≤ p.totalPower) : p.Sane :=
  ⟨hfit, hu, hq, hs⟩

theorem shape_withVotes {p : Proposal} (hs : p.Shape) {v : Votes} (h : MoreVotes p.votes v) :
    (withVotes p v).Shape :=
  ⟨hs.len.trans h.1, hs.three, hs.index, hs.none_⟩

theorem withVotes_same (p : Proposal) (v : Votes) : SameRules p (withVotes p v) :=
  ⟨rfl, rfl, rfl, rfl, rfl, rfl, rfl, rfl, rfl, rfl⟩

/-- **C19.** When the contract reports a proposal as passed, the quorum is met and one option other than
"none of the above" has strictly more weight than each other option; and that option is the one the
contract calls the winner. -/
theorem C19_pass_needs_plurality (p : Proposal) (b : Block) (hq : validateQuorum p.quorum = .ok ())
    (hs : p.Shape) (hu : p.totalPower < U128) (hfit : castTotal p.votes ≤ p.totalPower)
    (h : p.isPassed b = .ok true) :
    Quorum p ∧ ∃ i c, StrictWinner p.votes i ∧ ¬ IsNone p i ∧ p.choices[i]? = some c ∧
      p.voteResult = .ok (.winner c) := by
  obtain ⟨r, h1, h2⟩ := isPassed_spec (sane_of hq hs hu hfit) b
  rw [h1] at h
  obtain ⟨_, _, h3, i, h4, h5, _⟩ := h2.1 (Except.ok.inj h)
  refine ⟨h3, ?_⟩
  rcases voteResult_spec hs with ⟨j, c, hw, hc, hr⟩ | ⟨hno, _⟩
  · have := strict_unique h4 hw; subst this
    exact ⟨i, c, hw, h5, hc, hr⟩
  · exact absurd h4 (hno i)

/-- **C19.** Exactly when the contract reports passed: revoting and the minimum voting period allow it,
the quorum is met, one option other than "none of the above" leads strictly, and voting is over or
nobody can catch up with it. -/
theorem C19_pass_iff (p : Proposal) (b : Block) (hq : validateQuorum p.quorum = .ok ())
    (hs : p.Shape) (hu : p.totalPower < U128) (hfit : castTotal p.votes ≤ p.totalPower) :
    p.isPassed b = .ok true ↔
      (p.allowRevoting = true → p.expiration.isExpired b = true) ∧
      (∀ m, p.minVotingPeriod = some m → m.isExpired b = true) ∧
      Quorum p ∧ ∃ i, StrictWinner p.votes i ∧ ¬ IsNone p i ∧
        (p.expiration.isExpired b = true ∨
          ∀ j, j < p.votes.weights.length → j ≠ i →
            weight p.votes j + (p.totalPower - castTotal p.votes) < weight p.votes i) := by
  obtain ⟨r, h1, h2⟩ := isPassed_spec (sane_of hq hs hu hfit) b
  rw [h1, Except.ok.injEq, h2]
  unfold PassedP Unbeatable
  simp only [Bool.false_eq_true, if_false]
  have : p.minPeriodRunning b = false ↔ ∀ m, p.minVotingPeriod = some m → m.isExpired b = true := by
    unfold Proposal.minPeriodRunning
    cases p.minVotingPeriod <;> simp
  rw [this]

/-- **C19.** A proposal without revoting that passes before its voting period is over stays passed, with
the same winner: for every later tally within the total power, in every later block. -/
theorem C19_early_win_final (p : Proposal) (b b' : Block) (v' : Votes)
    (hq : validateQuorum p.quorum = .ok ()) (hs : p.Shape) (hu : p.totalPower < U128)
    (hfit : castTotal p.votes ≤ p.totalPower)
    (hrev : p.allowRevoting = false) (hopen : p.expiration.isExpired b = false)
    (hpassed : p.isPassed b = .ok true)
    (hb : b.le b') (hmore : MoreVotes p.votes v') (hfit' : castTotal v' ≤ p.totalPower) :
    (withVotes p v').isPassed b' = .ok true ∧
      ∃ i c, StrictWinner p.votes i ∧ StrictWinner v' i ∧ p.choices[i]? = some c ∧
        p.voteResult = .ok (.winner c) ∧ (withVotes p v').voteResult = .ok (.winner c) := by
  have hsane := sane_of hq hs hu hfit
  have hsane' : (withVotes p v').Sane := sane_of hq (shape_withVotes hs hmore) hu hfit'
  obtain ⟨r, h1, h2⟩ := isPassed_spec hsane b
  rw [h1] at hpassed
  obtain ⟨h3, i, h4, h5, _⟩ := passedP_final hsane hsane' (withVotes_same p v') hrev hopen hb hmore
    (h2.1 (Except.ok.inj hpassed))
  constructor
  · obtain ⟨r', h1', h2'⟩ := isPassed_spec hsane' b'
    rw [h1', h2'.2 h3]
  · rcases voteResult_spec hs with ⟨j, c, hw, hc, hr⟩ | ⟨hno, _⟩
    · rcases voteResult_spec hsane'.shape with ⟨k, c', hw', hc', hr'⟩ | ⟨hno', _⟩
      · have e1 := strict_unique h4 hw; have e2 := strict_unique h5 hw'
        subst e1; subst e2
        have hcc : c = c' := by
          have : p.choices[i]? = some c' := hc'
          rw [hc] at this; exact Option.some.inj this
        subst hcc
        exact ⟨i, c, h4, h5, hc, hr, hr'⟩
      · exact absurd h5 (hno' i)
    · exact absurd h4 (hno i)

/-- **C20.** A proposal is never passed and rejected at once. -/
theorem C20_never_both (p : Proposal) (b : Block) (hq : validateQuorum p.quorum = .ok ())
    (hs : p.Shape) (hu : p.totalPower < U128) (hfit : castTotal p.votes ≤ p.totalPower) :
    ¬ (p.isPassed b = .ok true ∧ p.isRejected b = .ok true) := by
  rintro ⟨h1, h2⟩
  obtain ⟨r, e1, f1⟩ := isPassed_spec (sane_of hq hs hu hfit) b
  obtain ⟨r', e2, f2⟩ := isRejected_spec (sane_of hq hs hu hfit) b
  rw [e1] at h1; rw [e2] at h2
  exact passed_rejected_excl (f1.1 (Except.ok.inj h1)) (f2.1 (Except.ok.inj h2))

/-- **C20.** Once voting is over one of the two holds, unless the minimum voting period is still
running: nothing is left undecided. -/
theorem C20_decided_at_expiry (p : Proposal) (b : Block) (hq : validateQuorum p.quorum = .ok ())
    (hs : p.Shape) (hu : p.totalPower < U128) (hfit : castTotal p.votes ≤ p.totalPower)
    (hexp : p.expiration.isExpired b = true)
    (hmin : ∀ m, p.minVotingPeriod = some m → m.isExpired b = true) :
    p.isPassed b = .ok true ∨ p.isRejected b = .ok true := by
  obtain ⟨r', e2, f2⟩ := isRejected_spec (sane_of hq hs hu hfit) b
  by_cases hr : RejectedP p b
  · right; rw [e2, f2.2 hr]
  · left
    rw [C19_pass_iff p b hq hs hu hfit]
    unfold RejectedP at hr
    simp only [hexp, implies_true, true_and, if_true, not_or, Classical.not_not] at hr
    obtain ⟨h1, h2, h3⟩ := hr
    refine ⟨fun _ => hexp, hmin, h1, ?_⟩
    by_cases hex : ∃ i, StrictWinner p.votes i
    · obtain ⟨i, hi⟩ := hex
      exact ⟨i, hi, fun hn => h3 ⟨i, hi, hn⟩, Or.inl hexp⟩
    · exact absurd (fun i hi => hex ⟨i, hi⟩) h2

/-- **C20.** After an early rejection no way of casting the remaining power makes the proposal pass, in
any later block. -/
theorem C20_early_reject_final (p : Proposal) (b b' : Block) (v' : Votes)
    (hq : validateQuorum p.quorum = .ok ()) (hs : p.Shape) (hu : p.totalPower < U128)
    (hfit : castTotal p.votes ≤ p.totalPower)
    (hopen : p.expiration.isExpired b = false)
    (hrej : p.isRejected b = .ok true)
    (hmore : MoreVotes p.votes v') (hfit' : castTotal v' ≤ p.totalPower) :
    (withVotes p v').isPassed b' = .ok false := by
  have hsane' : (withVotes p v').Sane := sane_of hq (shape_withVotes hs hmore) hu hfit'
  obtain ⟨r, h1, h2⟩ := isRejected_spec (sane_of hq hs hu hfit) b
  rw [h1] at hrej
  have := rejectedP_final (p' := withVotes p v') (b' := b') hfit' hopen hmore
    (h2.1 (Except.ok.inj hrej))
  obtain ⟨r', h1', h2'⟩ := isPassed_spec hsane' b'
  rw [h1']
  congr 1
  cases r' with
  | false => rfl
  | true => exact absurd (h2'.1 rfl) this

/-- **C20.** Exactly when a proposal is rejected early: everybody voted and there is no strict winner, or
"none of the above" leads by at least the power that is left. -/
theorem C20_early_reject_iff (p : Proposal) (b : Block)
    (hq : validateQuorum p.quorum = .ok ()) (hs : p.Shape) (hu : p.totalPower < U128)
    (hfit : castTotal p.votes ≤ p.totalPower)
    (hrev : p.allowRevoting = false) (hopen : p.expiration.isExpired b = false) :
    p.isRejected b = .ok true ↔
      ((∀ i, ¬ StrictWinner p.votes i) ∧ castTotal p.votes = p.totalPower) ∨
      ∃ i, StrictWinner p.votes i ∧ IsNone p i ∧
        ∀ j, j < p.votes.weights.length → j ≠ i →
          weight p.votes j + (p.totalPower - castTotal p.votes) ≤ weight p.votes i := by
  obtain ⟨r, h1, h2⟩ := isRejected_spec (sane_of hq hs hu hfit) b
  rw [h1, Except.ok.injEq, h2]
  unfold RejectedP Unbeatable
  simp only [hrev, hopen, Bool.false_eq_true, if_false, if_true, false_implies, true_and,
    @eq_comm _ (castTotal p.votes)]

/-- **C12** for multiple choice: with revoting nothing is decided before expiry. -/
theorem C12_multiple_revoting_undecided (p : Proposal) (b : Block) (hrev : p.allowRevoting = true)
    (hopen : p.expiration.isExpired b = false) :
    p.isPassed b = .ok false ∧ p.isRejected b = .ok false ∧
      (p.status = .opened → p.currentStatus b = .ok .opened) := by
  have h1 : p.isPassed b = .ok false := by simp [Proposal.isPassed, hrev, hopen]
  have h2 : p.isRejected b = .ok false := by simp [Proposal.isRejected, hrev, hopen]
  refine ⟨h1, h2, fun hs => ?_⟩
  unfold Proposal.currentStatus
  rw [hs]
  simp [h1, h2, hopen]

/-- **C12** for multiple choice: within the minimum voting period nothing passes. -/
theorem C12_multiple_min_period (p : Proposal) (b : Block) (m : Expiration)
    (hmin : p.minVotingPeriod = some m) (hrun : m.isExpired b = false) :
    p.isPassed b = .ok false := by
  unfold Proposal.isPassed
  split
  · rfl
  · simp [Proposal.minPeriodRunning, hmin, hrun]

/-! ### Witnesses -/

/-- A proposal to instantiate the hypotheses with: three options and "none of the above". -/
def sample (total : Nat) (w : List Nat) : Proposal :=
  { content := 1, proposer := 2, startHeight := 10, minVotingPeriod := none,
    expiration := .atHeight 100, quorum := .percent (2 * 10 ^ 17), totalPower := total,
    choices := [⟨0, false, 1, [5]⟩, ⟨1, false, 2, [6]⟩, ⟨2, false, 3, []⟩, ⟨3, true, 0, []⟩],
    status := .opened, votes := ⟨w⟩, allowRevoting := false, veto := none }

theorem sample_shape (total a b c d : Nat) : (sample total [a, b, c, d]).Shape := by
  refine ⟨rfl, Nat.le_succ 3, ?_, ?_⟩
  · intro i c h
    match i, h with
    | 0, h | 1, h | 2, h | 3, h => simp [sample] at h; subst h; rfl
  · intro i c h
    match i, h with
    | 0, h | 1, h | 2, h | 3, h => simp [sample] at h; subst h; simp [sample]

-- Non-vacuity of C19: passed early, and a continuation with the remaining 8 votes.
example :
    let p := sample 20 [1, 11, 0, 0]
    p.isPassed ⟨50, 0⟩ = .ok true ∧ p.expiration.isExpired ⟨50, 0⟩ = false ∧
      (withVotes p ⟨[9, 11, 0, 0]⟩).isPassed ⟨200, 0⟩ = .ok true ∧
      p.voteResult = .ok (.winner ⟨1, false, 2, [6]⟩) := by decide +kernel
-- Non-vacuity of C20: "none" leads by as much as is left.
example :
    let p := sample 20 [4, 4, 0, 8]
    p.isRejected ⟨50, 0⟩ = .ok true ∧ p.expiration.isExpired ⟨50, 0⟩ = false ∧
      (withVotes p ⟨[8, 4, 0, 8]⟩).isPassed ⟨200, 0⟩ = .ok false := by decide +kernel
-- A tie with all the power cast.
example : (sample 20 [10, 10, 0, 0]).isRejected ⟨50, 0⟩ = .ok true := by decide +kernel
example : (sample 21 [10, 10, 0, 0]).isRejected ⟨50, 0⟩ = .ok false := by decide +kernel

end Verif.Multiple
