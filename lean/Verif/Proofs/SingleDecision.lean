import Verif.Model.Single
import Verif.Proofs.Voting
/-! Helper lemmas about the decision functions of dao-proposal-single. -/

namespace Verif.Single
open Verif Verif.Voting

/-- The tally fits the total power, which fits 128 bits; the threshold was validated. -/
structure Proposal.Sane (p : Proposal) : Prop where
  fits : p.votes.yes + p.votes.no + p.votes.abstain ≤ p.totalPower
  u128 : p.totalPower < U128
  valid : p.threshold.validate = .ok ()

/-- Pure form of the rejection test. -/
def rejB (no options : Nat) (pct : PercentageThreshold) : Bool :=
  if pct = .percent DEC_ONE then (if options = 0 then true else decide (no ≥ 1))
  else failB no options pct

theorem rejectTest_eq {no o : Nat} {pct : PercentageThreshold} (hn : no < U128) (ho : o < U128)
    (hp : PctOk pct) : rejectTest no o pct = .ok (rejB no o pct) := by
  unfold rejectTest rejB
  by_cases h1 : pct = .percent DEC_ONE
  · rw [if_pos h1, if_pos h1]
    by_cases h : o = 0
    · rw [if_pos h, if_pos h]
    · rw [if_neg h, if_neg h]
  · rw [if_neg h1, if_neg h1, fail_eq hn ho hp]

theorem votesTotal_eq {v : Votes} (h : v.yes + v.no + v.abstain < U128) :
    v.total = .ok (v.yes + v.no + v.abstain) := by
  unfold Votes.total
  have h1 : add128 v.yes v.no = .ok (v.yes + v.no) := by rw [add128_ok]; omega
  have h2 : add128 (v.yes + v.no) v.abstain = .ok (v.yes + v.no + v.abstain) := by
    rw [add128_ok]; omega
  rw [h1, ok_bind, h2]

theorem sub128_eq {a b : Nat} (h : b ≤ a) : sub128 a b = .ok (a - b) := by rw [sub128_ok]; omega

/-- Sum of the three counters. -/
def vsum (v : Votes) : Nat := v.yes + v.no + v.abstain

/-- Pure form of `isPassed`. -/
def passedB (p : Proposal) (b : Block) : Bool :=
  if p.allowRevoting && !p.expiration.isExpired b then false
  else if p.minPeriodRunning b then false
  else match p.threshold with
    | .absolutePercentage pct => passB p.votes.yes (p.totalPower - p.votes.abstain) pct
    | .thresholdQuorum t q =>
      passB (vsum p.votes) p.totalPower q &&
        passB p.votes.yes
          ((if p.expiration.isExpired b then vsum p.votes else p.totalPower) - p.votes.abstain) t
    | .absoluteCount t => decide (p.votes.yes ≥ t)

/-- Pure form of `isRejected`. -/
def rejectedB (p : Proposal) (b : Block) : Bool :=
  if p.allowRevoting && !p.expiration.isExpired b then false
  else match p.threshold with
    | .absolutePercentage pct => rejB p.votes.no (p.totalPower - p.votes.abstain) pct
    | .thresholdQuorum t q =>
      if p.expiration.isExpired b then
        if passB (vsum p.votes) p.totalPower q then
          rejB p.votes.no (vsum p.votes - p.votes.abstain) t
        else true
      else rejB p.votes.no (p.totalPower - p.votes.abstain) t
    | .absoluteCount t => decide (p.votes.yes + (p.totalPower - vsum p.votes) < t)

theorem valid_abs {pct : PercentageThreshold}
    (h : (Threshold.absolutePercentage pct).validate = .ok ()) : PctOk pct :=
  pctOk_of_validatePercentage h

theorem valid_tq {t q : PercentageThreshold}
    (h : (Threshold.thresholdQuorum t q).validate = .ok ()) : PctOk t ∧ PctOk q := by
  simp only [Threshold.validate, bind_ok] at h
  obtain ⟨_, h1, h2⟩ := h
  exact ⟨pctOk_of_validatePercentage h1, pctOk_of_validateQuorum h2⟩

theorem isPassed_eq {p : Proposal} (hp : p.Sane) (b : Block) : p.isPassed b = .ok (passedB p b) := by
  obtain ⟨hf, hu, hv⟩ := hp
  unfold Proposal.isPassed passedB
  by_cases h1 : (p.allowRevoting && !p.expiration.isExpired b) = true
  · rw [if_pos h1, if_pos h1]
  rw [if_neg h1, if_neg h1]
  by_cases h2 : p.minPeriodRunning b = true
  · rw [if_pos h2, if_pos h2]
  rw [if_neg h2, if_neg h2]
  have ht := votesTotal_eq (v := p.votes) (by omega)
  cases hthr : p.threshold with
  | absolutePercentage pct =>
    rw [hthr] at hv
    simp only
    rw [sub128_eq (by omega), ok_bind, pass_eq (by omega) (by omega) (valid_abs hv)]
  | thresholdQuorum t q =>
    rw [hthr] at hv
    obtain ⟨hvt, hvq⟩ := valid_tq hv
    simp only
    rw [ht, ok_bind, pass_eq (by omega) hu hvq, ok_bind]
    unfold vsum
    cases hq : passB (p.votes.yes + p.votes.no + p.votes.abstain) p.totalPower q with
    | false => simp
    | true =>
      cases he : p.expiration.isExpired b with
      | true =>
        simp only [Bool.not_true, Bool.false_eq_true, if_false, if_true, Bool.true_and]
        rw [sub128_eq (by omega), ok_bind, pass_eq (by omega) (by omega) hvt]
      | false =>
        simp only [Bool.not_true, Bool.false_eq_true, if_false, Bool.true_and]
        rw [sub128_eq (by omega), ok_bind, pass_eq (by omega) (by omega) hvt]
  | absoluteCount t => rfl

theorem isRejected_eq {p : Proposal} (hp : p.Sane) (b : Block) :
    p.isRejected b = .ok (rejectedB p b) := by
  obtain ⟨hf, hu, hv⟩ := hp
  unfold Proposal.isRejected rejectedB
  by_cases h1 : (p.allowRevoting && !p.expiration.isExpired b) = true
  · rw [if_pos h1, if_pos h1]
  rw [if_neg h1, if_neg h1]
  have ht := votesTotal_eq (v := p.votes) (by omega)
  cases hthr : p.threshold with
  | absolutePercentage pct =>
    rw [hthr] at hv
    simp only
    rw [sub128_eq (by omega), ok_bind, rejectTest_eq (by omega) (by omega) (valid_abs hv)]
  | thresholdQuorum t q =>
    rw [hthr] at hv
    obtain ⟨hvt, hvq⟩ := valid_tq hv
    simp only
    rw [ht, ok_bind, pass_eq (by omega) hu hvq, ok_bind]
    unfold vsum
    cases he : p.expiration.isExpired b with
    | true =>
      simp only [if_true]
      cases hq : passB (p.votes.yes + p.votes.no + p.votes.abstain) p.totalPower q with
      | false => simp
      | true =>
        simp only [if_true]
        rw [sub128_eq (by omega), ok_bind, rejectTest_eq (by omega) (by omega) hvt]
    | false =>
      simp only [Bool.false_eq_true, if_false]
      rw [sub128_eq (by omega), ok_bind, rejectTest_eq (by omega) (by omega) hvt]
  | absoluteCount t =>
    simp only
    rw [ht, ok_bind, sub128_eq (by omega), ok_bind]
    have : add128 p.votes.yes (p.totalPower - (p.votes.yes + p.votes.no + p.votes.abstain)) =
        .ok (p.votes.yes + (p.totalPower - (p.votes.yes + p.votes.no + p.votes.abstain))) := by
      rw [add128_ok]; omega
    rw [this, ok_bind]; rfl

/-- Two versions of a proposal with the same rules: everything but status and tally agrees. -/
structure SameRules (p p' : Proposal) : Prop where
  content : p'.content = p.content
  proposer : p'.proposer = p.proposer
  startHeight : p'.startHeight = p.startHeight
  minVotingPeriod : p'.minVotingPeriod = p.minVotingPeriod
  expiration : p'.expiration = p.expiration
  threshold : p'.threshold = p.threshold
  totalPower : p'.totalPower = p.totalPower
  msgs : p'.msgs = p.msgs
  allowRevoting : p'.allowRevoting = p.allowRevoting
  veto : p'.veto = p.veto

theorem SameRules.refl (p : Proposal) : SameRules p p :=
  ⟨rfl, rfl, rfl, rfl, rfl, rfl, rfl, rfl, rfl, rfl⟩

theorem SameRules.trans {p q r : Proposal} (h : SameRules p q) (h' : SameRules q r) :
    SameRules p r :=
  ⟨h'.1.trans h.1, h'.2.trans h.2, h'.3.trans h.3, h'.4.trans h.4, h'.5.trans h.5, h'.6.trans h.6,
   h'.7.trans h.7, h'.8.trans h.8, h'.9.trans h.9, h'.10.trans h.10⟩

theorem SameRules.minPeriodRunning {p p' : Proposal} (h : SameRules p p') (b : Block) :
    p'.minPeriodRunning b = p.minPeriodRunning b := by
  unfold Proposal.minPeriodRunning; rw [h.minVotingPeriod]

/-- `v'` extends `v` by further ballots. -/
def Extends (v v' : Votes) : Prop :=
  v.yes ≤ v'.yes ∧ v.no ≤ v'.no ∧ v.abstain ≤ v'.abstain

theorem minPeriod_mono {p : Proposal} {b b' : Block} (h : b.le b')
    (hm : ¬ p.minPeriodRunning b = true) : ¬ p.minPeriodRunning b' = true := by
  unfold Proposal.minPeriodRunning at *
  cases hmin : p.minVotingPeriod with
  | none => simp
  | some m =>
    rw [hmin] at hm
    simp at hm
    simp [Expiration.isExpired_mono h hm]

theorem passedB_final {p p' : Proposal} {b b' : Block} (hsr : SameRules p p')
    (hrev : p.allowRevoting = false) (hopen : p.expiration.isExpired b = false) (hb : b.le b')
    (hext : Extends p.votes p'.votes) (hfit : vsum p'.votes ≤ p.totalPower) (hyes : 0 < p'.votes.yes)
    (h : passedB p b = true) : passedB p' b' = true := by
  obtain ⟨e1, e2, e3⟩ := hext
  unfold vsum at hfit
  unfold passedB at h ⊢
  rw [hsr.allowRevoting, hsr.minPeriodRunning, hsr.threshold, hsr.totalPower, hsr.expiration]
  simp only [hrev, Bool.false_and, Bool.false_eq_true, if_false] at h ⊢
  by_cases h2 : p.minPeriodRunning b = true
  · rw [if_pos h2] at h; cases h
  rw [if_neg h2] at h
  have h2' := minPeriod_mono hb h2
  rw [if_neg h2']
  cases hthr : p.threshold with
  | absolutePercentage pct =>
    rw [hthr] at h
    simp only at h ⊢
    exact passB_mono h e1 (by omega) (by omega)
  | thresholdQuorum t q =>
    rw [hthr] at h
    simp only [Bool.and_eq_true] at h ⊢
    have hT : p.totalPower ≠ 0 := by omega
    refine ⟨passB_mono h.1 (by unfold vsum; omega) (Nat.le_refl _) hT, ?_⟩
    have h' := h.2
    simp only [hopen, Bool.false_eq_true, if_false] at h'
    split
    · exact passB_mono h' e1 (by unfold vsum; omega) (by unfold vsum; omega)
    · exact passB_mono h' e1 (by omega) (by omega)
  | absoluteCount t =>
    rw [hthr] at h
    simp only [decide_eq_true_eq] at h ⊢; omega

theorem rejB_mono {no no' o o' : Nat} {pct : PercentageThreshold} (h : rejB no o pct = true)
    (h1 : no ≤ no') (h2 : o' ≤ o) : rejB no' o' pct = true := by
  unfold rejB at *
  split at h
  · rename_i hp
    rw [if_pos hp]
    split
    · rfl
    · split at h
      · omega
      · simp at h ⊢; omega
  · rename_i hp
    rw [if_neg hp]
    exact failB_mono h h1 h2

/-- At a threshold of one hundred percent passing needs every eligible vote. -/
theorem passB_one {y o : Nat} (h : passB y o (.percent DEC_ONE) = true) : o ≠ 0 ∧ o ≤ y := by
  simp only [passB, Bool.and_eq_true, decide_eq_true_eq] at h
  refine ⟨h.1, ?_⟩
  have h2 := h.2
  rw [DEC_PF, ← Nat.mul_assoc, Nat.mul_div_cancel _ PF_pos] at h2
  exact Nat.le_of_mul_le_mul_right h2 PF_pos

theorem pass_rej_excl {y no o : Nat} {pct : PercentageThreshold} (hp : PctOk pct)
    (h9 : NineDecimals pct) (hle : y + no ≤ o) (h1 : passB y o pct = true)
    (h2 : rejB no o pct = true) : False := by
  unfold rejB at h2
  split at h2
  · rename_i hpct
    rw [hpct] at h1
    obtain ⟨h0, hy⟩ := passB_one h1
    rw [if_neg h0] at h2
    simp at h2; omega
  · exact pass_fail_excl hp h9 hle h1 h2

/-- Nine decimals for the passing percentage of a threshold (quorums do not matter). -/
def NineThreshold : Threshold → Prop
  | .absolutePercentage p => NineDecimals p
  | .thresholdQuorum t _ => NineDecimals t
  | .absoluteCount _ => True

theorem rejectedB_final {p p' : Proposal} {b b' : Block} (hsr : SameRules p p')
    (hv : p.threshold.validate = .ok ()) (h9 : NineThreshold p.threshold)
    (hrev : p.allowRevoting = false) (hopen : p.expiration.isExpired b = false)
    (hext : Extends p.votes p'.votes) (hfit : vsum p'.votes ≤ p.totalPower)
    (h : rejectedB p b = true) : passedB p' b' = false := by
  obtain ⟨e1, e2, e3⟩ := hext
  unfold vsum at hfit
  rw [← Bool.not_eq_true]
  intro hpass
  unfold rejectedB at h
  unfold passedB at hpass
  rw [hsr.allowRevoting, hsr.minPeriodRunning, hsr.threshold, hsr.totalPower, hsr.expiration] at hpass
  simp only [hrev, Bool.false_and, Bool.false_eq_true, if_false] at h hpass
  by_cases hm : p.minPeriodRunning b' = true
  · rw [if_pos hm] at hpass; cases hpass
  rw [if_neg hm] at hpass
  cases hthr : p.threshold with
  | absolutePercentage pct =>
    rw [hthr] at h hpass hv h9
    simp only at h hpass
    exact pass_rej_excl (valid_abs hv) h9 (by omega) hpass
      (rejB_mono h e2 (by omega : p.totalPower - p'.votes.abstain ≤ _))
  | thresholdQuorum t q =>
    rw [hthr] at h hpass hv h9
    simp only [Bool.and_eq_true, hopen, Bool.false_eq_true, if_false] at h hpass
    have hp := hpass.2
    split at hp
    · exact pass_rej_excl (valid_tq hv).1 h9 (by unfold vsum; omega) hp
        (rejB_mono h e2 (by unfold vsum; omega))
    · exact pass_rej_excl (valid_tq hv).1 h9 (by omega) hp (rejB_mono h e2 (by omega))
  | absoluteCount t =>
    rw [hthr] at h hpass
    have h := of_decide_eq_true h; have hpass := of_decide_eq_true hpass
    unfold vsum at h; omega

theorem passed_rejected_excl {p : Proposal} {b : Block}
    (hv : p.threshold.validate = .ok ()) (h9 : NineThreshold p.threshold)
    (hfit : vsum p.votes ≤ p.totalPower)
    (h1 : passedB p b = true) (h2 : rejectedB p b = true) : False := by
  unfold vsum at hfit
  unfold rejectedB at h2
  unfold passedB at h1
  split at h1
  · cases h1
  rename_i hr
  rw [if_neg hr] at h2
  split at h1
  · cases h1
  cases hthr : p.threshold with
  | absolutePercentage pct =>
    rw [hthr] at h1 h2 hv h9
    exact pass_rej_excl (valid_abs hv) h9 (by omega) h1 h2
  | thresholdQuorum t q =>
    rw [hthr] at h1 h2 hv h9
    simp only [Bool.and_eq_true] at h1 h2
    obtain ⟨hq, hp⟩ := h1
    split at hp
    · rename_i he
      rw [if_pos he, if_pos hq] at h2
      exact pass_rej_excl (valid_tq hv).1 h9 (by unfold vsum; omega) hp h2
    · rename_i he
      rw [if_neg he] at h2
      exact pass_rej_excl (valid_tq hv).1 h9 (by omega) hp h2
  | absoluteCount t =>
    rw [hthr] at h1 h2
    have h1 := of_decide_eq_true h1; have h2 := of_decide_eq_true h2
    unfold vsum at h2; omega

end Verif.Single
