import Verif.Model.Voting
/-!
# Active thresholds

`ActiveThreshold` of packages/dao-voting and the `is_active` queries of the voting modules that use it:
dao-voting-token-staked, dao-voting-cw20-staked, dao-voting-cw721-staked, dao-voting-onft-staked.
-/

namespace Verif.Active
open Verif Verif.Voting

/-- `ActiveThreshold`, packages/dao-voting/src/threshold.rs:12-19. A `Decimal` is its atomics, in units of
1e-18. -/
inductive ActiveThreshold where
  | absolute (count : Nat)
  | percentage (atomics : Nat)
  deriving DecidableEq, Repr

/-- `assert_valid_absolute_count_threshold`, packages/dao-voting/src/threshold.rs:38-49. -/
def assertValidCount (count supply : Nat) : Res Unit := do
  require (decide (count ≠ 0)) .invalid
  require (decide (count ≤ supply)) .invalid

/-- `assert_valid_percentage_threshold`, packages/dao-voting/src/threshold.rs:51-56. -/
def assertValidPercentage (p : Nat) : Res Unit := require (decide (p ≠ 0 ∧ p ≤ DEC_ONE)) .invalid

/-- The count a percentage stands for, contracts/voting/dao-voting-token-staked/src/contract.rs:517-536;
the same expression in the other three modules. `Uint256` sums panic on overflow, and so does the
conversion to `Uint128`. -/
def percentCount (supply p : Nat) : Res Nat := do
  let t ← fullMul supply PRECISION_FACTOR
  let applied ← mulRatio256 t p DEC_ONE
  require (decide (applied + PRECISION_FACTOR < U256)) .overflow
  let n := (applied + PRECISION_FACTOR - 1) / PRECISION_FACTOR
  require (decide (n < U128)) .panic
  .ok n

/-- `query_is_active`, contracts/voting/dao-voting-token-staked/src/contract.rs:485-545, and
contracts/voting/dao-voting-cw20-staked/src/contract.rs:303-365. -/
def isActive (t : Option ActiveThreshold) (staked supply : Nat) : Res Bool :=
  match t with
  | none => .ok true
  | some (.absolute n) => .ok (decide (n ≤ staked))
  | some (.percentage p) => do
    let n ← percentCount supply p
    .ok (decide (n ≤ staked))

/-- `query_is_active` of the two NFT modules,
contracts/voting/dao-voting-cw721-staked/src/contract.rs:508-575: a percentage is never met by nothing. -/
def isActiveNft (t : Option ActiveThreshold) (staked supply : Nat) : Res Bool :=
  match t with
  | none => .ok true
  | some (.absolute n) => .ok (decide (n ≤ staked))
  | some (.percentage p) =>
    if staked = 0 then .ok false
    else do
      let n ← percentCount supply p
      .ok (decide (n ≤ staked))

end Verif.Active
