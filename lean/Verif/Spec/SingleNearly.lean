import Verif.Spec.Single
/-!
# C10: a threshold met but for less than a billionth of a vote

Percentages are fixed-point decimals with eighteen digits and the contract compares at a precision of
nine, so with more than nine decimals it can only promise the threshold up to `10^-9` votes.
-/

namespace Verif.Spec
open Verif Verif.Voting

/-- `w` of `n` votes meet the percentage, or are short of it by less than a billionth of a vote
(`n * p < w + 10^-9`, the percentage given by its atomics `a`, `p = a / 10^18`). A majority is never
rounded. -/
def NearlyMeets (w n : Nat) : PercentageThreshold → Prop
  | .majority => n < 2 * w
  | .percent a => n * a < w * 10 ^ 18 + 10 ^ 9

/-- `ShouldPass`, with each percentage met but for less than a billionth of a vote. -/
def NearlyPasses (thr : Threshold) (total : Nat) (v : Votes) (expired : Bool) : Prop :=
  match thr with
  | .absolutePercentage p => NearlyMeets v.yes (total - v.abstain) p
  | .thresholdQuorum t q =>
    NearlyMeets (v.yes + v.no + v.abstain) total q ∧
      NearlyMeets v.yes (if expired then v.yes + v.no else total - v.abstain) t
  | .absoluteCount n => n ≤ v.yes

end Verif.Spec
