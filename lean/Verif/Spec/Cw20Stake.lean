import Verif.Model.Cw20Stake
import Mathlib.Data.Rat.Defs
import Mathlib.Algebra.Order.Field.Rat
/-!
# Specification vocabulary for cw20-stake

What the English properties speak about, in terms of what can be observed: token balances, claims,
staked balances, the value of the pool, and the log of calls.
-/

namespace Verif.Spec.Stake
open Verif Verif.Cw20Stake

/-- The tokens held by `a`. -/
def tokens (w : World) (a : Addr) : Nat := getD0 w.ledger a

/-- The tokens one share is worth. -/
def price (w : World) : ℚ := (totalValue w.c : ℚ) / (w.c.total : ℚ)

/-- Everything `a` owns: tokens, claims, and the part of the pool that belongs to the shares of `a`. -/
def wealth (w : World) (a : Addr) : ℚ :=
  (tokens w a : ℚ) + (claimSum (w.c.claims.of a) : ℚ) + (w.c.stakedOf a : ℚ) * price w

/-- Who signs a transaction. -/
def signer : Call → Option Addr
  | .exec a _ => some a
  | .send a _ _ => some a
  | .transfer a _ _ => some a
  | .mint _ _ => none
  | .burn a _ => some a

/-- The claims created for `a`: by each of its unstakings under an unstaking duration, for the value that
left the pool, released that duration after the block of the unstaking. -/
def createdFor (a : Addr) : List (Ev World Block Call Out) → List Claim
  | [] => []
  | e :: log =>
    createdFor a log ++
      match e.call, e.pre.c.config.unstakingDuration with
      | .exec s (.unstake _), some d =>
        if s = a then [⟨totalValue e.pre.c - totalValue e.post.c, d.after e.env⟩] else []
      | _, _ => []

/-- The tokens paid to `a` for its claims. -/
def paidClaims (a : Addr) : List (Ev World Block Call Out) → Nat
  | [] => 0
  | e :: log =>
    paidClaims a log +
      match e.call with
      | .exec s .claim => if s = a then tokens e.post a - tokens e.pre a else 0
      | _ => 0

end Verif.Spec.Stake
