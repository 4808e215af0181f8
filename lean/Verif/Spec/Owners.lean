import Verif.Base.History
import Verif.Base.Ownable
/-!
# Who owns a contract

What the owner of a contract should be, told only from the successful calls of `UpdateOwnership` there were.
-/

namespace Verif.Spec.Owners
open Verif

/-- A successful call of `UpdateOwnership`: the block, who called and the action. -/
structure Said where
  block : Block
  by_ : Addr
  action : OwnerAction
  deriving DecidableEq, Repr

/-- The successful calls of `UpdateOwnership` in a history, newest first; `tells` reads them off a transaction. -/
def said {S E C O : Type} (tells : E → C → Option Said) (log : List (Ev S E C O)) : List Said :=
  log.filterMap fun e => tells e.env e.call

/-- The owner after these calls, of a contract created with the owner `o`: who accepted last, unless the ownership was
renounced after that. A nomination alone changes nothing. -/
def ownerAfter (o : Option Addr) : List Said → Option Addr
  | [] => o
  | x :: l =>
    match x.action with
    | .accept => some x.by_
    | .renounce => none
    | .transfer _ _ => ownerAfter o l

/-- The offer is still open in a block. -/
def inTime (b : Block) : Option Expiration → Prop
  | none => True
  | some e => e.isExpired b = false

/-- Who may have said what: only the owner of that moment nominates or renounces, and whoever accepts was nominated by
the call before, which nobody has replaced or withdrawn, and accepts in time. -/
def Rightful (o : Option Addr) (l : List Said) : Prop :=
  ∀ later x earlier, l = later ++ x :: earlier →
    match x.action with
    | .transfer _ _ => ownerAfter o earlier = some x.by_
    | .renounce => ownerAfter o earlier = some x.by_
    | .accept => ∃ y rest u, earlier = y :: rest ∧ y.action = .transfer x.by_ u ∧ inTime x.block u

end Verif.Spec.Owners
