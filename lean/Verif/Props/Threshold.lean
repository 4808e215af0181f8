import Verif.Proofs.Voting
/-!
# C01, C02: threshold arithmetic

Specification vocabulary: a percentage `p` is given by its atomics `a`, `p = a / 10^18`. "`w` out of
`n` votes reach `p`", `w / n ≥ p`, is the cross-multiplied `n * a ≤ w * 10^18`.
-/

namespace Verif.Voting
open Verif

/-- Specification: `w` votes are at least the fraction `a / 10^18` of `n`. -/
@[reducible] def Reaches (w n a : Nat) : Prop := n * a ≤ w * 10 ^ 18

/-- Specification: `w` votes fall short of the fraction `a / 10^18` of `n` votes by at least one
billionth of a vote: `w + 10^-9 ≤ n * a / 10^18`. -/
@[reducible] def ShortByBillionth (w n a : Nat) : Prop := w * 10 ^ 18 + 10 ^ 9 ≤ n * a

theorem pow18 : (10 : Nat) ^ 18 = DEC_ONE := by rw [DEC_ONE_eq]
theorem pow9 : (10 : Nat) ^ 9 = PRECISION_FACTOR := by rw [PRECISION_FACTOR_eq]

theorem pass_iff_aux (w n a : Nat) :
    w * PRECISION_FACTOR ≥ n * a / PRECISION_FACTOR ↔
      n * a < w * DEC_ONE + PRECISION_FACTOR := by
  rw [ge_iff_le, ← Nat.lt_succ_iff, Nat.div_lt_iff_lt_mul PF_pos, Nat.succ_mul, DEC_PF,
    ← Nat.mul_assoc]

theorem fail_iff_aux (w x : Nat) :
    w * PRECISION_FACTOR > x / PRECISION_FACTOR ↔ x < w * DEC_ONE := by
  rw [gt_iff_lt, Nat.div_lt_iff_lt_mul PF_pos, DEC_PF, ← Nat.mul_assoc]

/-- **C01.** A percentage threshold is met whenever `w / n ≥ p`. -/
theorem C01_pass_complete (w n a : Nat) (hw : w < U128) (hn : n < U128) (ha : a ≤ 10 ^ 18)
    (hn0 : n ≠ 0) (h : Reaches w n a) : doesVoteCountPass w n (.percent a) = .ok true := by
  unfold Reaches at h
  rw [pow18] at ha h
  rw [pass_eq (pt := .percent a) hw hn ha]
  have : n * a < w * DEC_ONE + PRECISION_FACTOR := Nat.lt_of_le_of_lt h (Nat.lt_add_of_pos_right PF_pos)
  simp only [passB, hn0, ne_eq, not_false_eq_true, decide_true, Bool.true_and,
    decide_eq_true ((pass_iff_aux w n a).2 this)]

/-- **C01.** A percentage threshold is never met when the votes fall short of it by a billionth of a
vote or more. -/
theorem C01_pass_sound (w n a : Nat) (hw : w < U128) (hn : n < U128) (ha : a ≤ 10 ^ 18)
    (h : ShortByBillionth w n a) : doesVoteCountPass w n (.percent a) = .ok false := by
  unfold ShortByBillionth at h
  rw [pow18] at ha h
  rw [pow9] at h
  rw [pass_eq (pt := .percent a) hw hn ha]
  have : ¬ (w * PRECISION_FACTOR ≥ n * a / PRECISION_FACTOR) := by
    rw [pass_iff_aux]; omega
  simp only [passB, decide_eq_false this, Bool.and_false]

/-- **C01.** The exact condition under which a percentage threshold is met. -/
theorem C01_pass_iff (w n a : Nat) (hw : w < U128) (hn : n < U128) (ha : a ≤ 10 ^ 18) :
    doesVoteCountPass w n (.percent a) = .ok true ↔ n ≠ 0 ∧ ¬ ShortByBillionth w n a := by
  unfold ShortByBillionth
  rw [pow18] at ha ⊢
  rw [pow9, pass_eq (pt := .percent a) hw hn ha]
  have := pass_iff_aux w n a
  simp only [Except.ok.injEq, passB, Bool.and_eq_true, decide_eq_true_eq, this]
  omega

/-- **C01.** With at most nine decimals the comparison is exact. -/
theorem C01_pass_exact (w n a : Nat) (hw : w < U128) (hn : n < U128) (ha : a ≤ 10 ^ 18)
    (h9 : 10 ^ 9 ∣ a) :
    doesVoteCountPass w n (.percent a) = .ok true ↔ n ≠ 0 ∧ Reaches w n a := by
  rw [C01_pass_iff w n a hw hn ha]
  unfold ShortByBillionth Reaches
  rw [pow18]
  rw [pow9] at h9 ⊢
  obtain ⟨k, rfl⟩ := h9
  rw [DEC_PF, Nat.mul_left_comm w, Nat.mul_left_comm n]
  constructor
  · rintro ⟨h0, h⟩
    refine ⟨h0, ?_⟩
    rw [← Nat.mul_succ, Nat.mul_le_mul_left_iff PF_pos] at h
    exact Nat.mul_le_mul_left _ (by omega)
  · rintro ⟨h0, h⟩
    refine ⟨h0, ?_⟩
    have := PF_pos
    omega

/-- **C01.** `no` votes make a percentage threshold unreachable exactly when more than `1 - p` of the
votes are against; this comparison is exact for every decimal. -/
theorem C01_fail_iff (w n a : Nat) (hw : w < U128) (hn : n < U128) (ha : a ≤ 10 ^ 18) :
    doesVoteCountFail w n (.percent a) = .ok true ↔ n = 0 ∨ n * (10 ^ 18 - a) < w * 10 ^ 18 := by
  rw [pow18] at ha ⊢
  rw [fail_eq (pt := .percent a) hw hn ha]
  have := fail_iff_aux w (n * (DEC_ONE - a))
  simp only [Except.ok.injEq, failB, Bool.or_eq_true, decide_eq_true_eq, this]

/-- **C01.** A majority threshold is met iff more than half of the votes are in favour. -/
theorem C01_majority_pass (w n : Nat) (hw : w < U128) (hn : n < U128) :
    doesVoteCountPass w n .majority = .ok true ↔ n < 2 * w ∧ n ≠ 0 := by
  rw [pass_eq (pt := .majority) hw hn trivial]
  simp [passB]; omega

/-- **C01.** A majority threshold is unreachable iff at least half of the votes are against. -/
theorem C01_majority_fail (w n : Nat) (hw : w < U128) (hn : n < U128) :
    doesVoteCountFail w n .majority = .ok true ↔ n ≤ 2 * w := by
  rw [fail_eq (pt := .majority) hw hn trivial]
  simp [failB]

/-- **C01.** With no eligible votes nothing passes and everything fails. -/
theorem C01_no_votes (w : Nat) (pt : PercentageThreshold) :
    doesVoteCountPass w 0 pt = .ok false ∧ doesVoteCountFail w 0 pt = .ok true := by
  constructor <;> rfl

/-- The percentage part of a validated threshold. -/
def Threshold.percentages : Threshold → List PercentageThreshold
  | .absolutePercentage p => [p]
  | .thresholdQuorum t q => [t, q]
  | .absoluteCount _ => []

/-- **C02.** Evaluating any percentage of a validated threshold on any 128-bit counts gives an answer,
never an overflow or a panic. -/
theorem C02_total (t : Threshold) (ht : t.validate = .ok ()) (pt : PercentageThreshold)
    (hp : pt ∈ t.percentages) (w n : Nat) (hw : w < U128) (hn : n < U128) :
    (∃ b, doesVoteCountPass w n pt = .ok b) ∧ (∃ b, doesVoteCountFail w n pt = .ok b) := by
  have hok : PctOk pt := by
    cases t with
    | absolutePercentage p =>
      simp [Threshold.percentages] at hp; subst hp
      exact pctOk_of_validatePercentage ht
    | thresholdQuorum a b =>
      simp only [Threshold.validate, bind_ok] at ht
      obtain ⟨_, h1, h2⟩ := ht
      simp [Threshold.percentages] at hp
      rcases hp with rfl | rfl
      · exact pctOk_of_validatePercentage h1
      · exact pctOk_of_validateQuorum h2
    | absoluteCount _ => simp [Threshold.percentages] at hp
  exact ⟨⟨_, pass_eq hw hn hok⟩, ⟨_, fail_eq hw hn hok⟩⟩

/-- **C02.** Validation is needed: above one hundred percent the failure test panics (underflow of
`1 - p`). -/
theorem C02_needs_validation :
    doesVoteCountFail 1 1 (.percent (DEC_ONE + 1)) = .error .underflow := by decide +kernel

-- The hypotheses are met by ordinary cases, and both answers occur.
example : doesVoteCountPass 6 10 (.percent (6 * 10 ^ 17)) = .ok true := by decide +kernel
example : doesVoteCountPass 5 10 (.percent (6 * 10 ^ 17)) = .ok false := by decide +kernel
example : Reaches 6 10 (6 * 10 ^ 17) ∧ ¬ Reaches 5 10 (6 * 10 ^ 17) := by decide +kernel
example : doesVoteCountFail 5 10 (.percent (6 * 10 ^ 17)) = .ok true := by decide +kernel
example : doesVoteCountFail 4 10 (.percent (6 * 10 ^ 17)) = .ok false := by decide +kernel
example : (Threshold.thresholdQuorum .majority (.percent (2 * 10 ^ 17))).validate = .ok () := by
  decide +kernel
/-- The rounding is real: 7 of 13 votes are below 53.8461538461538462 %, yet they pass. -/
example : doesVoteCountPass 7 13 (.percent 538461538461538462) = .ok true ∧
    ¬ Reaches 7 13 538461538461538462 := by decide +kernel
example : doesVoteCountPass (2 ^ 127) (2 ^ 128 - 1) .majority = .ok true := by decide +kernel

end Verif.Voting
