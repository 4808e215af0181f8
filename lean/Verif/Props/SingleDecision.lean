import Verif.Proofs.SingleDecision
import Verif.Props.Threshold
import Verif.Spec.Single
/-!
# C03, C04, C05, C12: the outcome of a single choice proposal

`isPassed`, `isRejected` and `currentStatus` are the model of the functions behind every status a user
sees. A continuation of the voting is any later tally within the total power.
-/

namespace Verif.Single
open Verif Verif.Voting Verif.Spec

theorem nineThreshold_of {t : Threshold} (h : NineDecThreshold t) : NineThreshold t := by
  have key : ∀ p, NineDec p → NineDecimals p := by
    intro p hp
    cases p with
    | majority => trivial
    | percent a => exact hp
  cases t with
  | absolutePercentage p => exact key p h
  | thresholdQuorum t q => exact key t h
  | absoluteCount n => trivial

theorem sane_of {p : Proposal} (hthr : p.threshold.validate = .ok ())
    (hfit : WithinPower p.votes p.totalPower) (hu : p.totalPower < U128) : p.Sane :=
  ⟨hfit, hu, hthr⟩

/-- The proposal with another tally. -/
def Proposal.withVotes (p : Proposal) (v : Votes) : Proposal := { p with votes := v }

theorem withVotes_same (p : Proposal) (v : Votes) : SameRules p (p.withVotes v) :=
  ⟨rfl, rfl, rfl, rfl, rfl, rfl, rfl, rfl, rfl, rfl⟩

/-- **C03.** A proposal without revoting that is passed before its voting period is over stays passed:
for every later tally within the total power with a yes vote in it, in every later block, before and
after expiry. -/
theorem C03_early_pass_final (p : Proposal) (b b' : Block) (v' : Votes)
    (hthr : p.threshold.validate = .ok ()) (hu : p.totalPower < U128)
    (hfit : WithinPower p.votes p.totalPower)
    (hrev : p.allowRevoting = false) (hopen : p.expiration.isExpired b = false)
    (hpassed : p.isPassed b = .ok true)
    (hb : b.le b') (hmore : MoreVotes p.votes v') (hfit' : WithinPower v' p.totalPower)
    (hyes : 0 < v'.yes) :
    (p.withVotes v').isPassed b' = .ok true := by
  rw [isPassed_eq (sane_of hthr hfit hu)] at hpassed
  rw [isPassed_eq (p := p.withVotes v') (sane_of hthr hfit' hu)]
  rw [passedB_final (withVotes_same p v') hrev hopen hb hmore hfit' hyes (Except.ok.inj hpassed)]

/-- The statuses that mean "passed": passed, or passed and waiting for the veto timelock. -/
def PassedStatus : Status → Prop
  | .passed => True
  | .vetoTimelock _ => True
  | _ => False

theorem status_of_passed {p : Proposal} {b : Block} (hs : p.status = .opened)
    (hp : p.isPassed b = .ok true)
    (hv : ∀ v, p.veto = some v → ∃ e, p.expiration.add v.timelockDuration = .ok e) :
    ∃ st, p.currentStatus b = .ok st ∧ PassedStatus st := by
  unfold Proposal.currentStatus
  rw [hs]
  simp only [hp, ok_bind, if_true]
  cases hveto : p.veto with
  | none => exact ⟨_, rfl, trivial⟩
  | some v =>
    obtain ⟨e, he⟩ := hv v hveto
    simp only [he, ok_bind]
    split
    · exact ⟨_, rfl, trivial⟩
    · exact ⟨_, rfl, trivial⟩

/-- **C03**, as reported by the status query. The veto configuration's unit matches the expiration's,
as configuration validation enforces. -/
theorem C03_early_pass_final_status (p : Proposal) (b b' : Block) (v' : Votes)
    (hstatus : p.status = .opened)
    (hthr : p.threshold.validate = .ok ()) (hu : p.totalPower < U128)
    (hfit : WithinPower p.votes p.totalPower)
    (hrev : p.allowRevoting = false) (hopen : p.expiration.isExpired b = false)
    (hpassed : ∃ st, p.currentStatus b = .ok st ∧ PassedStatus st)
    (hb : b.le b') (hmore : MoreVotes p.votes v') (hfit' : WithinPower v' p.totalPower)
    (hyes : 0 < v'.yes) :
    ∃ st, (p.withVotes v').currentStatus b' = .ok st ∧ PassedStatus st := by
  obtain ⟨st, h1, h2⟩ := hpassed
  have hs := sane_of hthr hfit hu
  have hp : p.isPassed b = .ok true := by
    rw [isPassed_eq hs]
    unfold Proposal.currentStatus at h1
    rw [hstatus] at h1
    simp only [isPassed_eq hs, isRejected_eq hs, ok_bind] at h1
    cases hpb : passedB p b with
    | true => rfl
    | false =>
      exfalso
      rw [hpb] at h1
      simp only [Bool.false_eq_true, if_false] at h1
      split at h1
      · injection h1 with h1; subst h1; exact h2
      · split at h1 <;> · injection h1 with h1; subst h1; exact h2
  have hfin := C03_early_pass_final p b b' v' hthr hu hfit hrev hopen hp hb hmore hfit' hyes
  have hvet : ∀ v, p.veto = some v → ∃ e, p.expiration.add v.timelockDuration = .ok e := by
    intro v hv
    unfold Proposal.currentStatus at h1
    rw [hstatus] at h1
    simp only [hp, ok_bind, if_true, hv, bind_ok] at h1
    obtain ⟨e, he, _⟩ := h1
    exact ⟨e, he⟩
  exact status_of_passed (p := p.withVotes v') hstatus hfin hvet

/-- Meeting a percentage exactly is enough to pass the rounded test. -/
theorem passB_of_meets {w n : Nat} {pt : PercentageThreshold} (h : Meets w n pt) :
    passB w n pt = true := by
  cases pt with
  | majority =>
    obtain ⟨h0, h⟩ : n ≠ 0 ∧ n < 2 * w := h
    simp [passB]; omega
  | percent a =>
    obtain ⟨h0, h⟩ : n ≠ 0 ∧ n * a ≤ w * 10 ^ 18 := h
    rw [pow18] at h
    have hc := (pass_iff_aux w n a).2 (Nat.lt_of_le_of_lt h (Nat.lt_add_of_pos_right PF_pos))
    simp only [passB, h0, ne_eq, not_false_eq_true, decide_true, Bool.true_and,
      decide_eq_true hc]

theorem pow18D : (10 : Nat) ^ 18 = DEC_ONE := pow18

/-- More than `1 - a` of the votes against, counted over at least the eligible votes, leaves less than
`a` in favour. -/
theorem not_meets_of_failB {y no n n0 no0 : Nat} {pt : PercentageThreshold} (hp : PctOk pt)
    (h : rejB no0 n0 pt = true) (hno : no0 ≤ no) (hn : n ≤ n0) (hle : y + no ≤ n) :
    ¬ Meets y n pt := by
  have h' := rejB_mono h hno hn
  intro hm
  cases pt with
  | majority =>
    have hm : n ≠ 0 ∧ n < 2 * y := hm
    simp [rejB, failB] at h'; omega
  | percent a =>
    obtain ⟨h0, hm⟩ : n ≠ 0 ∧ n * a ≤ y * 10 ^ 18 := hm
    rw [pow18D] at hm
    have ha : a ≤ DEC_ONE := hp
    unfold rejB at h'
    split at h'
    · rename_i hpct
      injection hpct with hpct
      rw [hpct] at hm
      have hno1 := of_decide_eq_true h'
      have := Nat.le_of_mul_le_mul_right hm DEC_ONE_pos
      omega
    · simp only [failB, Bool.or_eq_true, decide_eq_true_eq] at h'
      rcases h' with h' | h'
      · exact h0 h'
      · have h' := (fail_iff_aux no (n * (DEC_ONE - a))).1 h'
        have e : n * (DEC_ONE - a) + n * a = n * DEC_ONE := by
          rw [← Nat.mul_add]; congr 1; omega
        have e2 : (y + no) * DEC_ONE ≤ n * DEC_ONE := Nat.mul_le_mul_right _ hle
        rw [Nat.add_mul] at e2
        omega

/-- **C04.** Early rejection is right: when a proposal without revoting is rejected before its voting
period is over, no way of casting the remaining power makes the tally meet the threshold, neither
while voting runs nor at expiry. Every threshold, every decimal. -/
theorem C04_early_reject_right (p : Proposal) (b : Block) (v' : Votes) (expired : Bool)
    (hthr : p.threshold.validate = .ok ()) (hu : p.totalPower < U128)
    (hfit : WithinPower p.votes p.totalPower)
    (hrev : p.allowRevoting = false) (hopen : p.expiration.isExpired b = false)
    (hrej : p.isRejected b = .ok true)
    (hmore : MoreVotes p.votes v') (hfit' : WithinPower v' p.totalPower) :
    ¬ ShouldPass p.threshold p.totalPower v' expired := by
  rw [isRejected_eq (sane_of hthr hfit hu)] at hrej
  have h := Except.ok.inj hrej
  obtain ⟨e1, e2, e3⟩ := hmore
  unfold WithinPower at hfit'
  unfold rejectedB at h
  simp only [hrev, Bool.false_and, Bool.false_eq_true, if_false] at h
  unfold ShouldPass
  cases hth : p.threshold with
  | absolutePercentage pct =>
    rw [hth] at h hthr
    exact not_meets_of_failB (valid_abs hthr) h e2 (by omega) (by omega)
  | thresholdQuorum t q =>
    rw [hth] at h hthr
    simp only [hopen, Bool.false_eq_true, if_false] at h
    rintro ⟨_, hm⟩
    revert hm
    cases expired
    · simp only [Bool.false_eq_true, if_false]
      exact not_meets_of_failB (valid_tq hthr).1 h e2 (by omega) (by omega)
    · simp only [if_true]
      exact not_meets_of_failB (valid_tq hthr).1 h e2 (by omega) (by omega)
  | absoluteCount t =>
    rw [hth] at h
    have h := of_decide_eq_true h
    unfold vsum at h
    simp only; omega

/-- **C04**, for percentages of at most nine decimals (the full claim, for every decimal, is false:
see `C04_false_in_general`). After an early rejection the contract never reports the proposal as
passed, whatever is cast, in any later block. -/
theorem C04_early_reject_final_partial (p : Proposal) (b b' : Block) (v' : Votes)
    (h9 : NineDecThreshold p.threshold)
    (hthr : p.threshold.validate = .ok ()) (hu : p.totalPower < U128)
    (hfit : WithinPower p.votes p.totalPower)
    (hrev : p.allowRevoting = false) (hopen : p.expiration.isExpired b = false)
    (hrej : p.isRejected b = .ok true)
    (hmore : MoreVotes p.votes v') (hfit' : WithinPower v' p.totalPower) :
    (p.withVotes v').isPassed b' = .ok false := by
  rw [isRejected_eq (sane_of hthr hfit hu)] at hrej
  rw [isPassed_eq (p := p.withVotes v') (sane_of hthr hfit' hu)]
  rw [rejectedB_final (withVotes_same p v') hthr (nineThreshold_of h9) hrev hopen hmore hfit' (Except.ok.inj hrej)]

/-- **C05**, for percentages of at most nine decimals (false in general: `C05_false_in_general`). -/
theorem C05_never_both_partial (p : Proposal) (b : Block)
    (h9 : NineDecThreshold p.threshold)
    (hthr : p.threshold.validate = .ok ()) (hu : p.totalPower < U128)
    (hfit : WithinPower p.votes p.totalPower) :
    ¬ (p.isPassed b = .ok true ∧ p.isRejected b = .ok true) := by
  rw [isRejected_eq (sane_of hthr hfit hu), isPassed_eq (sane_of hthr hfit hu)]
  rintro ⟨h1, h2⟩
  exact passed_rejected_excl hthr (nineThreshold_of h9) hfit (Except.ok.inj h1) (Except.ok.inj h2)

/-- **C05.** For every decimal, a proposal reported as rejected (and past revoting) does not meet its
threshold; with `C10_pass_iff` below, "both" can only happen inside the rounding error. -/
theorem C05_rejected_not_met (p : Proposal) (b : Block)
    (hthr : p.threshold.validate = .ok ()) (hu : p.totalPower < U128)
    (hfit : WithinPower p.votes p.totalPower)
    (hrej : p.isRejected b = .ok true) :
    ¬ ShouldPass p.threshold p.totalPower p.votes (p.expiration.isExpired b) := by
  rw [isRejected_eq (sane_of hthr hfit hu)] at hrej
  have h := Except.ok.inj hrej
  unfold WithinPower at hfit
  unfold rejectedB at h
  split at h
  · cases h
  unfold ShouldPass
  cases hth : p.threshold with
  | absolutePercentage pct =>
    rw [hth] at h hthr
    exact not_meets_of_failB (valid_abs hthr) h (Nat.le_refl _) (Nat.le_refl _) (by omega)
  | thresholdQuorum t q =>
    rw [hth] at h hthr
    simp only at h
    rintro ⟨hq, hm⟩
    revert hm
    cases he : p.expiration.isExpired b with
    | false =>
      simp only [he, Bool.false_eq_true, if_false] at h ⊢
      exact not_meets_of_failB (valid_tq hthr).1 h (Nat.le_refl _) (Nat.le_refl _) (by omega)
    | true =>
      simp only [he, if_true] at h ⊢
      split at h
      · exact not_meets_of_failB (valid_tq hthr).1 h (Nat.le_refl _) (by unfold vsum; omega)
          (by omega)
      · rename_i hnq
        exfalso; apply hnq
        exact passB_of_meets hq
  | absoluteCount t =>
    rw [hth] at h
    have h := of_decide_eq_true h
    simp only; omega

theorem meets_of_passB {w n : Nat} {pt : PercentageThreshold} (h9 : NineDec pt)
    (h : passB w n pt = true) : Meets w n pt := by
  cases pt with
  | majority =>
    show n ≠ 0 ∧ n < 2 * w
    simp [passB] at h; omega
  | percent a =>
    show n ≠ 0 ∧ n * a ≤ w * 10 ^ 18
    simp only [passB, Bool.and_eq_true, decide_eq_true_eq] at h
    refine ⟨h.1, ?_⟩
    have h2 := (pass_iff_aux w n a).1 h.2
    obtain ⟨k, rfl⟩ : ∃ k, a = PRECISION_FACTOR * k := by rw [← pow9]; exact h9
    rw [pow18]
    rw [DEC_PF, Nat.mul_left_comm n, Nat.mul_left_comm w, ← Nat.mul_succ,
      Nat.mul_lt_mul_left PF_pos] at h2
    rw [DEC_PF, Nat.mul_left_comm n, Nat.mul_left_comm w]
    exact Nat.mul_le_mul_left _ (by omega)

/-- Past the minimum voting period and, with revoting, past the expiration. -/
def MayPass (p : Proposal) (b : Block) : Prop :=
  (p.allowRevoting = true → p.expiration.isExpired b = true) ∧
  (∀ m, p.minVotingPeriod = some m → m.isExpired b = true)

theorem mayPass_iff {p : Proposal} {b : Block} :
    MayPass p b ↔ ¬ (p.allowRevoting && !p.expiration.isExpired b) = true ∧
      ¬ p.minPeriodRunning b = true := by
  unfold MayPass Proposal.minPeriodRunning
  cases p.allowRevoting <;> cases p.expiration.isExpired b <;> cases p.minVotingPeriod <;> simp

/-- **C03/C10 support.** A tally that meets the threshold is reported as passed, for every threshold
and every decimal, once revoting and the minimum voting period allow it. -/
theorem C10_pass_complete (p : Proposal) (b : Block)
    (hthr : p.threshold.validate = .ok ()) (hu : p.totalPower < U128)
    (hfit : WithinPower p.votes p.totalPower) (hmay : MayPass p b)
    (h : ShouldPass p.threshold p.totalPower p.votes (p.expiration.isExpired b)) :
    p.isPassed b = .ok true := by
  rw [isPassed_eq (sane_of hthr hfit hu)]
  congr 1
  obtain ⟨h1, h2⟩ := mayPass_iff.1 hmay
  unfold passedB
  rw [if_neg h1, if_neg h2]
  unfold ShouldPass at h
  cases hth : p.threshold with
  | absolutePercentage pct => rw [hth] at h; exact passB_of_meets h
  | thresholdQuorum t q =>
    rw [hth] at h
    simp only [Bool.and_eq_true] at h ⊢
    refine ⟨passB_of_meets h.1, ?_⟩
    have h' := passB_of_meets h.2
    split
    · rename_i he
      rw [if_pos he] at h'
      have : vsum p.votes - p.votes.abstain = p.votes.yes + p.votes.no := by unfold vsum; omega
      rw [this]; exact h'
    · rename_i he
      rw [if_neg he] at h'; exact h'
  | absoluteCount t =>
    rw [hth] at h
    exact decide_eq_true h

/-- **C10 support.** With at most nine decimals a proposal is reported as passed exactly when revoting
and the minimum voting period allow it and its tally meets its threshold. -/
theorem C10_pass_iff (p : Proposal) (b : Block) (h9 : NineDecAll p.threshold)
    (hthr : p.threshold.validate = .ok ()) (hu : p.totalPower < U128)
    (hfit : WithinPower p.votes p.totalPower) :
    p.isPassed b = .ok true ↔
      MayPass p b ∧ ShouldPass p.threshold p.totalPower p.votes (p.expiration.isExpired b) := by
  refine ⟨fun h => ?_, fun h => C10_pass_complete p b hthr hu hfit h.1 h.2⟩
  rw [isPassed_eq (sane_of hthr hfit hu)] at h
  have h := Except.ok.inj h
  unfold passedB at h
  split at h
  · cases h
  split at h
  · cases h
  rename_i h1 h2
  refine ⟨mayPass_iff.2 ⟨h1, h2⟩, ?_⟩
  unfold ShouldPass
  cases hth : p.threshold with
  | absolutePercentage pct =>
    rw [hth] at h h9; exact meets_of_passB h9 h
  | thresholdQuorum t q =>
    rw [hth] at h h9
    simp only [Bool.and_eq_true] at h ⊢
    refine ⟨meets_of_passB h9.2 h.1, ?_⟩
    have h' := meets_of_passB h9.1 h.2
    split
    · rename_i he
      rw [if_pos he] at h'
      have : vsum p.votes - p.votes.abstain = p.votes.yes + p.votes.no := by unfold vsum; omega
      rw [this] at h'; exact h'
    · rename_i he
      rw [if_neg he] at h'; exact h'
  | absoluteCount t =>
    rw [hth] at h
    exact of_decide_eq_true h

/-- **C12.** With revoting, nothing is decided before expiry: neither passed nor rejected, and the
status query keeps answering "open". -/
theorem C12_revoting_undecided (p : Proposal) (b : Block) (hrev : p.allowRevoting = true)
    (hopen : p.expiration.isExpired b = false) :
    p.isPassed b = .ok false ∧ p.isRejected b = .ok false ∧
      (p.status = .opened → p.currentStatus b = .ok .opened) := by
  have h1 : p.isPassed b = .ok false := by simp [Proposal.isPassed, hrev, hopen]
  have h2 : p.isRejected b = .ok false := by simp [Proposal.isRejected, hrev, hopen]
  refine ⟨h1, h2, fun hs => ?_⟩
  unfold Proposal.currentStatus
  rw [hs]
  simp [h1, h2, hopen]

/-- **C12.** Within the minimum voting period no proposal passes; its status stays open or becomes
rejected. -/
theorem C12_min_period (p : Proposal) (b : Block) (m : Expiration)
    (hmin : p.minVotingPeriod = some m) (hrun : m.isExpired b = false) :
    p.isPassed b = .ok false ∧
      ∀ st, p.status = .opened → p.currentStatus b = .ok st → st = .opened ∨ st = .rejected := by
  have h1 : p.isPassed b = .ok false := by
    unfold Proposal.isPassed
    split
    · rfl
    · simp [Proposal.minPeriodRunning, hmin, hrun]
  refine ⟨h1, fun st hs hc => ?_⟩
  unfold Proposal.currentStatus at hc
  rw [hs] at hc
  simp only [h1, ok_bind, Bool.false_eq_true, if_false] at hc
  split at hc
  · injection hc with hc; exact Or.inr hc.symm
  · simp only [bind_ok] at hc
    obtain ⟨r, _, hc⟩ := hc
    split at hc
    · injection hc with hc; exact Or.inr hc.symm
    · injection hc with hc; exact Or.inl hc.symm

/-! ### Witnesses -/

/-- A proposal to instantiate the hypotheses with. -/
def sample (t : Threshold) (total : Nat) (v : Votes) : Proposal :=
  { content := 1, proposer := 2, startHeight := 10, minVotingPeriod := none,
    expiration := .atHeight 100, threshold := t, totalPower := total, msgs := [7], status := .opened,
    votes := v, allowRevoting := false, veto := none }

/-- **C05 is false in general.** With an absolute threshold of 53.8461538461538462 %, thirteen votes,
seven yes and six no, the proposal is both passed and rejected. -/
theorem C05_false_in_general :
    let p := sample (.absolutePercentage (.percent 538461538461538462)) 13 ⟨7, 6, 0⟩
    p.threshold.validate = .ok () ∧ WithinPower p.votes p.totalPower ∧
      p.isPassed ⟨50, 0⟩ = .ok true ∧ p.isRejected ⟨50, 0⟩ = .ok true := by
  refine ⟨by decide +kernel, ?_, by decide +kernel, by decide +kernel⟩
  show 7 + 6 + 0 ≤ 13
  decide

/-- **C04 is false in general.** Same threshold: after six no votes the proposal reports rejected, and
seven later yes votes make `is_passed` answer true. (The recorded status stays `Rejected` if a vote
recorded it.) -/
theorem C04_false_in_general :
    let p := sample (.absolutePercentage (.percent 538461538461538462)) 13 ⟨0, 6, 0⟩
    p.threshold.validate = .ok () ∧ p.expiration.isExpired ⟨50, 0⟩ = false ∧
      p.isRejected ⟨50, 0⟩ = .ok true ∧ MoreVotes p.votes ⟨7, 6, 0⟩ ∧
      WithinPower ⟨7, 6, 0⟩ p.totalPower ∧ (p.withVotes ⟨7, 6, 0⟩).isPassed ⟨60, 0⟩ = .ok true := by
  refine ⟨by decide +kernel, by decide +kernel, by decide +kernel, ?_, ?_, by decide +kernel⟩
  · show 0 ≤ 7 ∧ 6 ≤ 6 ∧ 0 ≤ 0
    decide
  · show 7 + 6 + 0 ≤ 13
    decide

/-- **C03 needs a yes vote.** A threshold of 10^-18 passes with no votes at all, and is undone when
everybody abstains. -/
theorem C03_needs_yes :
    let p := sample (.absolutePercentage (.percent 1)) 10 ⟨0, 0, 0⟩
    p.threshold.validate = .ok () ∧ p.isPassed ⟨50, 0⟩ = .ok true ∧
      (p.withVotes ⟨0, 0, 10⟩).isPassed ⟨60, 0⟩ = .ok false := by
  decide +kernel

-- Non-vacuity of C03: passed early, and a continuation with 9 more votes.
example :
    let p := sample (.thresholdQuorum .majority (.percent (2 * 10 ^ 17))) 20 ⟨11, 0, 0⟩
    p.isPassed ⟨50, 0⟩ = .ok true ∧ p.expiration.isExpired ⟨50, 0⟩ = false ∧
      (p.withVotes ⟨11, 9, 0⟩).isPassed ⟨200, 0⟩ = .ok true := by decide +kernel
-- Non-vacuity of C04.
example :
    let p := sample (.absolutePercentage (.percent (6 * 10 ^ 17))) 20 ⟨2, 9, 0⟩
    p.isRejected ⟨50, 0⟩ = .ok true ∧ p.expiration.isExpired ⟨50, 0⟩ = false ∧
      (p.withVotes ⟨11, 9, 0⟩).isPassed ⟨60, 0⟩ = .ok false := by decide +kernel
example : NineDecAll (.thresholdQuorum .majority (.percent (2 * 10 ^ 17))) :=
  ⟨trivial, ⟨2 * 10 ^ 8, by decide⟩⟩

end Verif.Single
