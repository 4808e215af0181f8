import Verif.Model.ActiveThreshold
import Mathlib.Tactic.Ring
import Mathlib.Tactic.FieldSimp
import Mathlib.Tactic.Linarith
import Mathlib.Tactic.NormNum
import Mathlib.Data.Rat.Defs
import Mathlib.Algebra.Order.Field.Rat
/-!
# C32: active thresholds
-/

namespace Verif.Active
open Verif Verif.Voting

/-- The value of a percentage as a number between 0 and 1. -/
def fraction (p : Nat) : ℚ := (p : ℚ) / 10 ^ 18

theorem percentCount_eq {supply p : Nat} (hs : supply < U128) (hp : p ≤ DEC_ONE) :
    percentCount supply p =
      .ok ((supply * 1000000000 * p / 1000000000000000000 + 999999999) / 1000000000) := by
  have hU := U128_lt_U256
  have h1 : supply * PRECISION_FACTOR < U256 := by rw [PRECISION_FACTOR_eq]; omega
  have hq : supply * PRECISION_FACTOR * p / DEC_ONE ≤ supply * PRECISION_FACTOR := by
    apply Nat.div_le_of_le_mul
    rw [Nat.mul_comm DEC_ONE]
    exact Nat.mul_le_mul_left _ hp
  have h2 : supply * PRECISION_FACTOR * p / DEC_ONE + PRECISION_FACTOR < U256 := by
    rw [PRECISION_FACTOR_eq] at *; omega
  have h3 : (supply * PRECISION_FACTOR * p / DEC_ONE + PRECISION_FACTOR - 1) / PRECISION_FACTOR < U128 := by
    rw [PRECISION_FACTOR_eq] at *
    rw [Nat.div_lt_iff_lt_mul (by omega)]; omega
  have hd : DEC_ONE ≠ 0 := Nat.pos_iff_ne_zero.1 DEC_ONE_pos
  unfold percentCount fullMul mulRatio256
  rw [if_pos h1, ok_bind, if_neg hd, if_pos (by omega), ok_bind]
  simp only [require, h2, h3, decide_true, if_true, ok_bind]
  rw [PRECISION_FACTOR_eq, DEC_ONE_eq]
  have e : ∀ x, x + 1000000000 - 1 = x + 999999999 := fun x => by omega
  rw [e]

theorem count_le {supply p staked : Nat} :
    (supply * 1000000000 * p / 1000000000000000000 + 999999999) / 1000000000 ≤ staked ↔
      supply * p * 1000000000 < (1000000000 * staked + 1) * 1000000000000000000 := by
  rw [← Nat.div_lt_iff_lt_mul (by omega), show supply * p * 1000000000 = supply * 1000000000 * p by ring]
  omega

/-- **C32.** With any valid percentage `p` and any supply the query answers, and answers that the DAO is
active exactly when the staked amount is at least `p` of the supply up to the precision of 1e-9 of a
token. -/
theorem C32_percentage {supply staked p : Nat} (hs : supply < U128) (hv : assertValidPercentage p = .ok ()) :
    ∃ r, isActive (some (.percentage p)) staked supply = .ok r ∧
      (r = true ↔ fraction p * supply < staked + 1 / 10 ^ 9) := by
  have hp : p ≤ DEC_ONE := by
    simp only [assertValidPercentage, require_ok, decide_eq_true_eq] at hv; exact hv.2
  refine ⟨decide ((supply * 1000000000 * p / 1000000000000000000 + 999999999) / 1000000000 ≤ staked), ?_, ?_⟩
  · simp only [isActive, percentCount_eq hs hp, ok_bind]
  · rw [decide_eq_true_eq, count_le]
    unfold fraction
    have : ((p : ℚ) / 10 ^ 18 * supply < staked + 1 / 10 ^ 9) ↔
        ((supply : ℚ) * p * 1000000000 < (1000000000 * staked + 1) * 1000000000000000000) := by
      rw [show (p : ℚ) / 10 ^ 18 * supply = supply * p * 1000000000 / 1000000000000000000000000000 by ring,
        show (staked : ℚ) + 1 / 10 ^ 9 =
          (1000000000 * staked + 1) * 1000000000000000000 / 1000000000000000000000000000 by ring]
      rw [div_lt_div_iff_of_pos_right (by norm_num)]
    rw [this]
    exact_mod_cast Iff.rfl

/-- **C32.** A staked amount that reaches the percentage of the supply always makes the DAO active. -/
theorem C32_reached {supply staked p : Nat} (hs : supply < U128) (hv : assertValidPercentage p = .ok ())
    (h : fraction p * supply ≤ staked) : isActive (some (.percentage p)) staked supply = .ok true := by
  obtain ⟨r, hr, hi⟩ := C32_percentage (staked := staked) hs hv
  rw [hr, hi.2]
  have : (0 : ℚ) < 1 / 10 ^ 9 := by norm_num
  linarith

/-- **C32.** For percentages with at most nine decimal places (such as whole percents) there is no error:
active exactly when the staked amount is at least the percentage of the supply. -/
theorem C32_exact {supply staked p : Nat} (hs : supply < U128)
    (hv : assertValidPercentage p = .ok ()) (h9 : 10 ^ 9 ∣ p) :
    ∃ r, isActive (some (.percentage p)) staked supply = .ok r ∧ (r = true ↔ fraction p * supply ≤ staked) := by
  obtain ⟨r, hr, hi⟩ := C32_percentage (staked := staked) hs hv
  refine ⟨r, hr, hi.trans ?_⟩
  obtain ⟨q, rfl⟩ := h9
  unfold fraction
  constructor
  · intro h
    have h1 : ((supply * q : Nat) : ℚ) < ((staked * 1000000000 + 1 : Nat) : ℚ) := by
      push_cast at h ⊢
      have e : ((1000000000 : ℚ) * q / 10 ^ 18 * supply) = supply * q / 1000000000 := by ring
      rw [e] at h
      rw [show (staked : ℚ) + 1 / 10 ^ 9 = (staked * 1000000000 + 1) / 1000000000 by ring] at h
      rwa [div_lt_div_iff_of_pos_right (by norm_num)] at h
    have h2 : supply * q ≤ staked * 1000000000 := by
      have : supply * q < staked * 1000000000 + 1 := by exact_mod_cast h1
      omega
    have h3 : ((supply * q : Nat) : ℚ) ≤ ((staked * 1000000000 : Nat) : ℚ) := by exact_mod_cast h2
    push_cast at h3 ⊢
    rw [show ((1000000000 : ℚ) * q / 10 ^ 18 * supply) = supply * q / 1000000000 by ring]
    rw [div_le_iff₀ (by norm_num)]; exact h3
  · intro h
    have : (0 : ℚ) < 1 / 10 ^ 9 := by norm_num
    linarith

/-- **C32.** An absolute threshold is reached exactly by that many tokens; without a threshold the DAO is
always active. -/
theorem C32_absolute (n staked supply : Nat) :
    isActive (some (.absolute n)) staked supply = .ok (decide (n ≤ staked)) ∧
      isActive none staked supply = .ok true ∧
      isActiveNft (some (.absolute n)) staked supply = .ok (decide (n ≤ staked)) ∧
      isActiveNft none staked supply = .ok true := ⟨rfl, rfl, rfl, rfl⟩

/-- **C32.** The NFT modules answer the same, except that with nothing staked a percentage is never
reached. -/
theorem C32_nft {supply staked p : Nat} (hs : supply < U128) (hv : assertValidPercentage p = .ok ()) :
    ∃ r, isActiveNft (some (.percentage p)) staked supply = .ok r ∧
      (r = true ↔ 0 < staked ∧ fraction p * supply < staked + 1 / 10 ^ 9) := by
  obtain ⟨r, hr, hi⟩ := C32_percentage (staked := staked) hs hv
  by_cases h0 : staked = 0
  · exact ⟨false, by simp [isActiveNft, h0], by simp [h0]⟩
  · refine ⟨r, ?_, by rw [hi]; simp [Nat.pos_of_ne_zero h0]⟩
    rw [← hr]; simp only [isActiveNft, isActive, h0, if_false]

/-- A valid threshold can be met: by staking the whole supply. -/
theorem C32_reachable {supply : Nat} (hs : supply < U128) :
    (∀ p, assertValidPercentage p = .ok () → isActive (some (.percentage p)) supply supply = .ok true) ∧
    (∀ n, assertValidCount n supply = .ok () → isActive (some (.absolute n)) supply supply = .ok true) := by
  refine ⟨fun p hv => C32_reached hs hv ?_, fun n hv => ?_⟩
  · simp only [assertValidPercentage, require_ok, decide_eq_true_eq, DEC_ONE_eq] at hv
    have h1 : (p : ℚ) ≤ 1000000000000000000 := by exact_mod_cast hv.2
    have h2 : fraction p ≤ 1 := by unfold fraction; rw [div_le_iff₀ (by norm_num)]; norm_num; linarith
    have h3 : (0 : ℚ) ≤ supply := Nat.cast_nonneg _
    nlinarith
  · simp only [assertValidCount, bind_ok, require_ok, decide_eq_true_eq] at hv
    obtain ⟨_, _, h⟩ := hv
    simp [isActive, h]

/-- The imprecision is real: at a percentage with 18 decimals one token less than required suffices. -/
theorem C32_precision_witness :
    isActive (some (.percentage 500000000000000001)) 1 2 = .ok true ∧ ¬ (fraction 500000000000000001 * 2 ≤ 1) := by
  refine ⟨by decide +kernel, ?_⟩
  unfold fraction; norm_num

/-- A third of 10, rounded up: 4 tokens. -/
example : assertValidPercentage 333333333333333333 = .ok () ∧
    isActive (some (.percentage 333333333333333333)) 4 10 = .ok true ∧
    isActive (some (.percentage 333333333333333333)) 3 10 = .ok false := by decide +kernel

end Verif.Active
