import Verif.Model.Voting
/-! Helper lemmas about the threshold arithmetic. Not property statements. -/

namespace Verif.Voting
open Verif

theorem PF_pos : 0 < PRECISION_FACTOR := by rw [PRECISION_FACTOR_eq]; decide

theorem DEC_PF : DEC_ONE = PRECISION_FACTOR * PRECISION_FACTOR := by
  rw [DEC_ONE_eq, PRECISION_FACTOR_eq]

/-- The two multiplications by the precision factor cancel into one division by it. -/
theorem thr_eq (n a : Nat) :
    n * PRECISION_FACTOR * a / DEC_ONE = n * a / PRECISION_FACTOR := by
  rw [DEC_PF, Nat.mul_right_comm, Nat.mul_div_mul_right _ _ PF_pos]

/-- All intermediate values of `compareVoteCount` fit for 128-bit inputs and a percentage of at most
one. -/
theorem compare_steps {w n a : Nat} (hw : w < U128) (hn : n < U128) (ha : a ≤ DEC_ONE) :
    fullMul w PRECISION_FACTOR = .ok (w * PRECISION_FACTOR) ∧
    fullMul n PRECISION_FACTOR = .ok (n * PRECISION_FACTOR) ∧
    mulRatio256 (n * PRECISION_FACTOR) a DEC_ONE = .ok (n * a / PRECISION_FACTOR) := by
  have hU := U128_lt_U256
  have key : ∀ x, x < U128 → x * PRECISION_FACTOR < U256 := by
    intro x hx
    rw [PRECISION_FACTOR_eq, Nat.mul_comm]; omega
  have ht : n * PRECISION_FACTOR * a / DEC_ONE < U256 := by
    refine Nat.lt_of_le_of_lt ?_ (key n hn)
    apply Nat.div_le_of_le_mul
    rw [Nat.mul_comm DEC_ONE]
    exact Nat.mul_le_mul_left _ ha
  have hd : DEC_ONE ≠ 0 := Nat.pos_iff_ne_zero.1 DEC_ONE_pos
  refine ⟨?_, ?_, ?_⟩
  · unfold fullMul; rw [if_pos (key w hw)]
  · unfold fullMul; rw [if_pos (key n hn)]
  · unfold mulRatio256; rw [if_neg hd, if_pos ht, thr_eq]

theorem compare_geq_of {w n a W N T : Nat} (h1 : fullMul w PRECISION_FACTOR = .ok W)
    (h2 : fullMul n PRECISION_FACTOR = .ok N) (h3 : mulRatio256 N a DEC_ONE = .ok T) :
    compareVoteCount w .geq n a = .ok (decide (W ≥ T)) := by
  unfold compareVoteCount
  rw [h1, ok_bind, h2, ok_bind, h3, ok_bind]
  exact pure_eq _

theorem compare_greater_of {w n a W N T : Nat} (h1 : fullMul w PRECISION_FACTOR = .ok W)
    (h2 : fullMul n PRECISION_FACTOR = .ok N) (h3 : mulRatio256 N a DEC_ONE = .ok T) :
    compareVoteCount w .greater n a = .ok (decide (W > T)) := by
  unfold compareVoteCount
  rw [h1, ok_bind, h2, ok_bind, h3, ok_bind]
  exact pure_eq _

theorem compare_geq {w n a : Nat} (hw : w < U128) (hn : n < U128) (ha : a ≤ DEC_ONE) :
    compareVoteCount w .geq n a =
      .ok (decide (w * PRECISION_FACTOR ≥ n * a / PRECISION_FACTOR)) := by
  obtain ⟨h1, h2, h3⟩ := compare_steps hw hn ha
  exact compare_geq_of h1 h2 h3

theorem compare_greater {w n a : Nat} (hw : w < U128) (hn : n < U128) (ha : a ≤ DEC_ONE) :
    compareVoteCount w .greater n a =
      .ok (decide (w * PRECISION_FACTOR > n * a / PRECISION_FACTOR)) := by
  obtain ⟨h1, h2, h3⟩ := compare_steps hw hn ha
  exact compare_greater_of h1 h2 h3

/-- Pure form of `doesVoteCountPass`. -/
def passB (w n : Nat) : PercentageThreshold → Bool
  | .majority => decide (n ≠ 0) && decide (2 * w > n)
  | .percent a => decide (n ≠ 0) && decide (w * PRECISION_FACTOR ≥ n * a / PRECISION_FACTOR)

/-- Pure form of `doesVoteCountFail`. -/
def failB (w n : Nat) : PercentageThreshold → Bool
  | .majority => decide (2 * w ≥ n)
  | .percent a =>
    decide (n = 0) || decide (w * PRECISION_FACTOR > n * (DEC_ONE - a) / PRECISION_FACTOR)

/-- The percentage is at most one. -/
def PctOk : PercentageThreshold → Prop
  | .majority => True
  | .percent a => a ≤ DEC_ONE

theorem fullMul_two {w : Nat} (hw : w < U128) : fullMul w 2 = .ok (2 * w) := by
  have hU := U128_lt_U256
  unfold fullMul
  rw [if_pos (by omega), Nat.mul_comm]

theorem pass_eq {w n : Nat} {pt : PercentageThreshold} (hw : w < U128) (hn : n < U128)
    (hp : PctOk pt) : doesVoteCountPass w n pt = .ok (passB w n pt) := by
  unfold doesVoteCountPass
  by_cases h0 : n = 0
  · subst h0; cases pt <;> simp [passB]
  · cases pt with
    | majority => simp [h0, fullMul_two hw, passB, ok_bind, pure_eq]
    | percent a =>
      have ha : a ≤ DEC_ONE := hp
      simp [h0, compare_geq hw hn ha, passB]

theorem fail_eq {w n : Nat} {pt : PercentageThreshold} (hw : w < U128) (hn : n < U128)
    (hp : PctOk pt) : doesVoteCountFail w n pt = .ok (failB w n pt) := by
  unfold doesVoteCountFail
  by_cases h0 : n = 0
  · subst h0; cases pt <;> simp [failB]
  · cases pt with
    | majority => simp [h0, fullMul_two hw, failB, ok_bind, pure_eq]
    | percent a =>
      have ha : a ≤ DEC_ONE := hp
      simp [h0, sub128, ha, compare_greater hw hn (Nat.sub_le _ _), failB, ok_bind]

theorem pctOk_of_validatePercentage {pt : PercentageThreshold} (h : validatePercentage pt = .ok ()) :
    PctOk pt := by
  cases pt with
  | majority => trivial
  | percent a =>
    simp only [validatePercentage] at h
    split at h
    · simp at h
    · split at h
      · simp at h
      · simp [PctOk]; omega

theorem pctOk_of_validateQuorum {pt : PercentageThreshold} (h : validateQuorum pt = .ok ()) :
    PctOk pt := by
  cases pt with
  | majority => trivial
  | percent a =>
    simp only [validateQuorum] at h
    split at h
    · simp at h
    · simp [PctOk]; omega

/-- More yes votes and fewer options never hurt, as long as there are options. -/
theorem passB_mono {w w' n n' : Nat} {pt : PercentageThreshold} (h : passB w n pt = true)
    (hw : w ≤ w') (hn : n' ≤ n) (h0 : n' ≠ 0) : passB w' n' pt = true := by
  cases pt with
  | majority => simp [passB] at h ⊢; omega
  | percent a =>
    simp only [passB, Bool.and_eq_true, decide_eq_true_eq] at h ⊢
    have h1 : n' * a / PRECISION_FACTOR ≤ n * a / PRECISION_FACTOR :=
      Nat.div_le_div_right (Nat.mul_le_mul_right _ hn)
    have h2 : w * PRECISION_FACTOR ≤ w' * PRECISION_FACTOR := Nat.mul_le_mul_right _ hw
    exact ⟨h0, by omega⟩

/-- More no votes and fewer options never un-fail. -/
theorem failB_mono {w w' n n' : Nat} {pt : PercentageThreshold} (h : failB w n pt = true)
    (hw : w ≤ w') (hn : n' ≤ n) : failB w' n' pt = true := by
  cases pt with
  | majority => simp [failB] at h ⊢; omega
  | percent a =>
    simp only [failB, Bool.or_eq_true, decide_eq_true_eq] at h ⊢
    have h1 : n' * (DEC_ONE - a) / PRECISION_FACTOR ≤ n * (DEC_ONE - a) / PRECISION_FACTOR :=
      Nat.div_le_div_right (Nat.mul_le_mul_right _ hn)
    have h2 : w * PRECISION_FACTOR ≤ w' * PRECISION_FACTOR := Nat.mul_le_mul_right _ hw
    omega

/-- Percentages of at most nine decimals. -/
def NineDecimals : PercentageThreshold → Prop
  | .majority => True
  | .percent a => 1000000000 ∣ a

/-- With at most nine decimals the rounded comparison is exact, so passing and failing exclude each
other for votes within the options. -/
theorem pass_fail_excl {y no n : Nat} {pt : PercentageThreshold} (hp : PctOk pt)
    (h9 : NineDecimals pt) (hle : y + no ≤ n) (h1 : passB y n pt = true)
    (h2 : failB no n pt = true) : False := by
  cases pt with
  | majority => simp [passB, failB] at h1 h2; omega
  | percent a =>
    obtain ⟨k, rfl⟩ : ∃ k, a = PRECISION_FACTOR * k := by rw [PRECISION_FACTOR_eq]; exact h9
    have hk : k ≤ PRECISION_FACTOR := by
      have h : PRECISION_FACTOR * k ≤ DEC_ONE := hp
      rw [DEC_PF] at h
      exact Nat.le_of_mul_le_mul_left h PF_pos
    simp only [passB, failB, Bool.and_eq_true, Bool.or_eq_true, decide_eq_true_eq] at h1 h2
    have e1 : n * (PRECISION_FACTOR * k) / PRECISION_FACTOR = n * k := by
      rw [Nat.mul_left_comm]; exact Nat.mul_div_cancel_left _ PF_pos
    have e2 : n * (DEC_ONE - PRECISION_FACTOR * k) / PRECISION_FACTOR
        = n * (PRECISION_FACTOR - k) := by
      rw [DEC_PF, ← Nat.mul_sub, Nat.mul_left_comm]; exact Nat.mul_div_cancel_left _ PF_pos
    rw [e1] at h1; rw [e2] at h2
    have e3 : n * k + n * (PRECISION_FACTOR - k) = n * PRECISION_FACTOR := by
      rw [← Nat.mul_add]; congr 1; omega
    have e4 := Nat.mul_le_mul_right PRECISION_FACTOR hle
    rw [Nat.add_mul] at e4
    omega

end Verif.Voting
