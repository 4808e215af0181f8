import Verif.Model.ExternalRewards
import Mathlib.Data.Rat.Defs
/-!
# Specification vocabulary for cw20-stake-external-rewards

In terms of what can be observed: balances of the reward token, the staking contract's queries and the log
of calls.
-/

namespace Verif.Spec.ExternalRewards
open Verif Verif.ExternalRewards

/-- The reward tokens held by `a`. -/
def coins (w : World) (a : Addr) : Nat := getD0 w.ledger a

/-- The reward tokens paid in with `Fund`. -/
def funded : List (Ev World Block Call Pay) → Nat
  | [] => 0
  | e :: log => funded log + match e.call with | .fund _ n => n | _ => 0

/-- The reward tokens that left the contract with claims. -/
def paidOut : List (Ev World Block Call Pay) → Nat
  | [] => 0
  | e :: log =>
    paidOut log + match e.call with
      | .exec _ .claim => coins e.pre e.pre.self - coins e.post e.post.self
      | _ => 0

/-- The reward tokens `a` received by its own claims. -/
def received (a : Addr) : List (Ev World Block Call Pay) → Nat
  | [] => 0
  | e :: log =>
    received a log + match e.call with
      | .exec s .claim => if s = a then coins e.post a - coins e.pre a else 0
      | _ => 0

/-- The reward of block `x`: a funding of `n` at height `h` with duration `d` is worth `n / d` in each of
the blocks `h + 1` to `h + d`. -/
def rewardOf (x : Nat) : List (Ev World Block Call Pay) → Nat
  | [] => 0
  | e :: log =>
    rewardOf x log + match e.call with
      | .fund _ n =>
        if e.env.height < x ∧ x ≤ e.env.height + e.pre.c.duration then n / e.pre.c.duration else 0
      | _ => 0

/-- The exact share of `a` in the rewards of the blocks 1 to `h`: the reward of each block is divided in
proportion to the stakes at its beginning (nobody gets the reward of a block that begins without
stakes). -/
def share (w : World) (log : List (Ev World Block Call Pay)) (a : Addr) : Nat → ℚ
  | 0 => 0
  | x + 1 => share w log a x + (rewardOf (x + 1) log : ℚ) * w.stakeAt a (x + 1) / w.totalAt (x + 1)

end Verif.Spec.ExternalRewards
