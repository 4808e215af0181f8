import Verif.Base.Core
/-!
# Model of `packages/dao-voting`

Threshold arithmetic, tallies, statuses, veto configuration, reply ids.
-/

namespace Verif.Voting
open Verif

/-- `PRECISION_FACTOR`, packages/dao-voting/src/voting.rs:8-10. -/
def PRECISION_FACTOR : Nat := 10 ^ 9

theorem PRECISION_FACTOR_eq : PRECISION_FACTOR = 1000000000 := by decide
attribute [irreducible] PRECISION_FACTOR

/-- `PercentageThreshold`, packages/dao-voting/src/threshold.rs:90-98. The decimal is given by its
atomics (scale 10^18). -/
inductive PercentageThreshold where
  | majority
  | percent (atomics : Nat)
  deriving DecidableEq, Repr

/-- `Threshold`, packages/dao-voting/src/threshold.rs:100-121. -/
inductive Threshold where
  | absolutePercentage (percentage : PercentageThreshold)
  | thresholdQuorum (threshold quorum : PercentageThreshold)
  | absoluteCount (threshold : Nat)
  deriving DecidableEq, Repr

/-- `validate_percentage`, packages/dao-voting/src/threshold.rs:123-136. -/
def validatePercentage : PercentageThreshold → Res Unit
  | .majority => .ok ()
  | .percent a =>
    if a = 0 then .error .invalid
    else if a > DEC_ONE then .error .invalid
    else .ok ()

/-- `validate_quorum`, packages/dao-voting/src/threshold.rs:138-150. -/
def validateQuorum : PercentageThreshold → Res Unit
  | .majority => .ok ()
  | .percent a => if a > DEC_ONE then .error .invalid else .ok ()

/-- `Threshold::validate`, packages/dao-voting/src/threshold.rs:152-190. -/
def Threshold.validate : Threshold → Res Unit
  | .absolutePercentage p => validatePercentage p
  | .thresholdQuorum t q => do validatePercentage t; validateQuorum q
  | .absoluteCount n => if n = 0 then .error .invalid else .ok ()

/-- `VoteCmp`, packages/dao-voting/src/voting.rs:42-45. -/
inductive VoteCmp where
  | greater
  | geq
  deriving DecidableEq, Repr

/-- `Uint128::full_mul` into a `Uint256`; the product of two 128-bit numbers always fits. The check
makes that an observable obligation instead of an assumption. -/
def fullMul (a b : Nat) : Res Nat := if a * b < U256 then .ok (a * b) else .error .overflow

/-- `Uint256::multiply_ratio`: full 512-bit product, floor division, panics when the denominator is
zero or the quotient does not fit 256 bits. -/
def mulRatio256 (x num den : Nat) : Res Nat :=
  if den = 0 then .error .panic
  else if x * num / den < U256 then .ok (x * num / den) else .error .overflow

/-- `compare_vote_count`, packages/dao-voting/src/voting.rs:81-97. -/
def compareVoteCount (votes : Nat) (cmp : VoteCmp) (totalPower pct : Nat) : Res Bool := do
  let v ← fullMul votes PRECISION_FACTOR
  let t ← fullMul totalPower PRECISION_FACTOR
  let thr ← mulRatio256 t pct DEC_ONE
  match cmp with
  | .greater => pure (decide (v > thr))
  | .geq => pure (decide (v ≥ thr))

/-- `does_vote_count_pass`, packages/dao-voting/src/voting.rs:99-114. -/
def doesVoteCountPass (weight options : Nat) (pct : PercentageThreshold) : Res Bool :=
  if options = 0 then .ok false
  else match pct with
    | .majority => do
      let w2 ← fullMul weight 2
      pure (decide (w2 > options))
    | .percent p => compareVoteCount weight .geq options p

/-- `does_vote_count_fail`, packages/dao-voting/src/voting.rs:116-137. `Decimal::one() - percent`
panics when the percentage exceeds one. -/
def doesVoteCountFail (noVotes options : Nat) (pct : PercentageThreshold) : Res Bool :=
  if options = 0 then .ok true
  else match pct with
    | .majority => do
      let n2 ← fullMul noVotes 2
      pure (decide (n2 ≥ options))
    | .percent p => do
      let q ← sub128 DEC_ONE p
      compareVoteCount noVotes .greater options q

/-- `Vote`, packages/dao-voting/src/voting.rs:19-30. -/
inductive Vote where
  | yes
  | no
  | abstain
  deriving DecidableEq, Repr

/-- `Votes`, packages/dao-voting/src/voting.rs:12-17. -/
structure Votes where
  yes : Nat
  no : Nat
  abstain : Nat
  deriving DecidableEq, Repr

/-- `Votes::zero`, packages/dao-voting/src/voting.rs:141-147. -/
def Votes.zero : Votes := ⟨0, 0, 0⟩

/-- `Votes::add_vote`, packages/dao-voting/src/voting.rs:161-167. -/
def Votes.addVote (v : Votes) (vote : Vote) (power : Nat) : Res Votes :=
  match vote with
  | .yes => do let y ← add128 v.yes power; pure { v with yes := y }
  | .no => do let n ← add128 v.no power; pure { v with no := n }
  | .abstain => do let a ← add128 v.abstain power; pure { v with abstain := a }

/-- `Votes::remove_vote`, packages/dao-voting/src/voting.rs:172-178. -/
def Votes.removeVote (v : Votes) (vote : Vote) (power : Nat) : Res Votes :=
  match vote with
  | .yes => do let y ← sub128 v.yes power; pure { v with yes := y }
  | .no => do let n ← sub128 v.no power; pure { v with no := n }
  | .abstain => do let a ← sub128 v.abstain power; pure { v with abstain := a }

/-- `Votes::total`, packages/dao-voting/src/voting.rs:187-189. -/
def Votes.total (v : Votes) : Res Nat := do
  let s ← add128 v.yes v.no
  add128 s v.abstain

/-- `validate_voting_period`, packages/dao-voting/src/voting.rs:229-249. -/
def validateVotingPeriod (min : Option Duration) (max : Duration) : Res Unit :=
  match min, max with
  | none, _ => .ok ()
  | some (.time a), .time b => if a ≤ b then .ok () else .error .invalid
  | some (.height a), .height b => if a ≤ b then .ok () else .error .invalid
  | _, _ => .error .invalid

/-- `Status`, packages/dao-voting/src/status.rs:5-26. -/
inductive Status where
  | opened
  | rejected
  | passed
  | executed
  | closed
  | executionFailed
  | vetoTimelock (expiration : Expiration)
  | vetoed
  deriving DecidableEq, Repr

/-- `VetoConfig`, packages/dao-voting/src/veto.rs:36-48. -/
structure VetoConfig where
  timelockDuration : Duration
  vetoer : Addr
  earlyExecute : Bool
  vetoBeforePassed : Bool
  deriving DecidableEq, Repr

/-- `VetoConfig::validate`, packages/dao-voting/src/veto.rs:51-63 (address validation dropped). -/
def VetoConfig.validate (v : VetoConfig) (max : Duration) : Res Unit :=
  match v.timelockDuration, max with
  | .time _, .time _ => .ok ()
  | .height _, .height _ => .ok ()
  | _, _ => .error .invalid

/-- `ProposalCreationPolicy`, packages/dao-voting/src/pre_propose.rs:23-31. -/
inductive CreationPolicy where
  | anyone
  | module (addr : Addr)
  deriving DecidableEq, Repr

/-- `ProposalCreationPolicy::is_permitted`, packages/dao-voting/src/pre_propose.rs:36-41. -/
def CreationPolicy.isPermitted : CreationPolicy → Addr → Bool
  | .anyone, _ => true
  | .module a, c => c == a

end Verif.Voting
