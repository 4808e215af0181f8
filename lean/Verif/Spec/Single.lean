import Verif.Model.Voting
/-!
# Specification: when a yes/no proposal ought to pass

Written from the documentation of thresholds, in exact rational arithmetic (cross-multiplied), without
the rounding and the control flow of the code.
-/

namespace Verif.Spec
open Verif Verif.Voting

/-- `w` of `n` votes meet a percentage: strictly more than half, respectively at least the fraction
`a / 10^18`. No votes at all never meet anything. -/
def Meets (w n : Nat) : PercentageThreshold → Prop
  | .majority => n ≠ 0 ∧ n < 2 * w
  | .percent a => n ≠ 0 ∧ n * a ≤ w * 10 ^ 18

/-- The tally meets the threshold. `total` is the total voting power; while voting runs, votes not yet
cast count against the proposal; after expiry only the votes cast count. Abstentions count towards
the quorum only. -/
def ShouldPass (thr : Threshold) (total : Nat) (v : Votes) (expired : Bool) : Prop :=
  match thr with
  | .absolutePercentage p => Meets v.yes (total - v.abstain) p
  | .thresholdQuorum t q =>
    Meets (v.yes + v.no + v.abstain) total q ∧
      Meets v.yes (if expired then v.yes + v.no else total - v.abstain) t
  | .absoluteCount n => n ≤ v.yes

/-- `v'` is a later tally than `v`: further ballots were cast, none was withdrawn. -/
def MoreVotes (v v' : Votes) : Prop :=
  v.yes ≤ v'.yes ∧ v.no ≤ v'.no ∧ v.abstain ≤ v'.abstain

/-- The votes cast stay within the total power. -/
def WithinPower (v : Votes) (total : Nat) : Prop := v.yes + v.no + v.abstain ≤ total

/-- A percentage with at most nine decimals. -/
def NineDec : PercentageThreshold → Prop
  | .majority => True
  | .percent a => 10 ^ 9 ∣ a

/-- The passing percentage (not the quorum) of the threshold has at most nine decimals. -/
def NineDecThreshold : Threshold → Prop
  | .absolutePercentage p => NineDec p
  | .thresholdQuorum t _ => NineDec t
  | .absoluteCount _ => True

/-- All percentages of the threshold, quorum included, have at most nine decimals. -/
def NineDecAll : Threshold → Prop
  | .absolutePercentage p => NineDec p
  | .thresholdQuorum t q => NineDec t ∧ NineDec q
  | .absoluteCount _ => True

end Verif.Spec
