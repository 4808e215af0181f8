import Verif.Model.Farms
import Mathlib.Data.Rat.Defs
/-!
# Specification vocabulary for a staking contract and its reward contracts

In terms of what can be observed: calls, token balances and the queries of the staking contract.
-/

namespace Verif.Spec.Farms
open Verif Verif.Farms

/-- What the holder has of the token that the reward contract at `a` pays in. -/
def coins (w : World) (a holder : Addr) : Nat :=
  match w.pools.get a with
  | some p => getD0 (w.ledger p.asset) holder
  | none => 0

/-- The tokens paid in to the reward contract at `a` with `Fund`. -/
def funded (a : Addr) : List Event → Nat
  | [] => 0
  | e :: log => funded a log + match e.call with | .pool x (.fund _ n) => if x = a then n else 0 | _ => 0

/-- The tokens that left the reward contract at `a` with claims. -/
def paidOut (a : Addr) : List Event → Nat
  | [] => 0
  | e :: log =>
    paidOut a log + match e.call with
      | .pool x (.exec _ .claim) => if x = a then coins e.pre a a - coins e.post a a else 0
      | _ => 0

/-- The tokens that `staker` received by its own claims at the reward contract at `a`. -/
def received (a staker : Addr) : List Event → Nat
  | [] => 0
  | e :: log =>
    received a staker log + match e.call with
      | .pool x (.exec s .claim) =>
        if x = a then if s = staker then coins e.post a staker - coins e.pre a staker else 0 else 0
      | _ => 0

/-- The duration of the reward periods of the reward contract at `a`. -/
def duration (w : World) (a : Addr) : Nat :=
  match w.pools.get a with
  | some p => p.c.duration
  | none => 0

/-- The reward of block `x`: a funding of `n` at height `h` with duration `d` is worth `n / d` in each of the blocks
`h + 1` to `h + d`. -/
def rewardOf (a : Addr) (x : Nat) : List Event → Nat
  | [] => 0
  | e :: log =>
    rewardOf a x log + match e.call with
      | .pool y (.fund _ n) =>
        if y = a then
          if e.env.height < x ∧ x ≤ e.env.height + duration e.pre a then n / duration e.pre a else 0
        else 0
      | _ => 0

/-- The exact share of `staker` in the rewards of the blocks 1 to `h`: the reward of each block is divided in proportion to
the stakes at its beginning. -/
def share (w : World) (log : List Event) (a staker : Addr) : Nat → ℚ
  | 0 => 0
  | x + 1 => share w log a staker x + (rewardOf a (x + 1) log : ℚ) *
      Cw20Stake.stakedAt w.stake.c staker (x + 1) / Cw20Stake.totalStakedAt w.stake.c (x + 1)

/-- Whose stake the call changes. -/
def staker : Call → Option Addr
  | .stake (.send s _ .stake) => some s
  | .stake (.exec s (.unstake _)) => some s
  | _ => none

/-- The staking contract tells `a` about stake changes. -/
def Hooked (w : World) (a : Addr) : Prop := a ∈ Hooks.items w.stake.c.hooks

/-- Nobody has called the reward contract at `a`, and it has not been told of a stake change. -/
def Unused (a : Addr) (log : List Event) : Prop :=
  ∀ e ∈ log, (∀ c, e.call ≠ .pool a c) ∧ ((staker e.call).isSome → ¬ Hooked e.pre a)

/-- The reward contract at `a` has been registered with the staking contract before its first use, and has stayed
registered since. -/
def Registered (a : Addr) (log : List Event) : Prop :=
  ∀ later e before, log = later ++ e :: before → (staker e.call).isSome → Hooked e.pre a ∨ Unused a before

end Verif.Spec.Farms
