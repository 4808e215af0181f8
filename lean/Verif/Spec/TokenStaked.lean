import Verif.Model.TokenStaked
/-!
# Specification vocabulary for dao-voting-token-staked

In terms of what can be observed: coin balances and the log of calls.
-/

namespace Verif.Spec.TokenStaked
open Verif Verif.TokenStaked

/-- The coins held by `a`. -/
def coins (w : World) (a : Addr) : Nat := getD0 w.ledger a

/-- The coins `a` paid in stake calls. -/
def putIn (a : Addr) : List (Ev World Block Call Out) → Nat
  | [] => 0
  | e :: log =>
    putIn a log +
      match e.call with
      | .stake s _ => if s = a then coins e.pre a - coins e.post a else 0
      | _ => 0

/-- The coins `a` received in its own unstake and claim calls. -/
def takenOut (a : Addr) : List (Ev World Block Call Out) → Nat
  | [] => 0
  | e :: log =>
    takenOut a log +
      match e.call with
      | .exec s (.unstake _) => if s = a then coins e.post a - coins e.pre a else 0
      | .exec s .claim => if s = a then coins e.post a - coins e.pre a else 0
      | _ => 0

/-- The coins sent or minted to the contract outside of stake calls. -/
def donated (self : Addr) : List (Ev World Block Call Out) → Nat
  | [] => 0
  | e :: log =>
    donated self log +
      match e.call with
      | .transfer _ to n => if to = self then n else 0
      | .mint to n => if to = self then n else 0
      | _ => 0

end Verif.Spec.TokenStaked
