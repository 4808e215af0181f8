import Verif.Model.Issuer
/-!
# Specification: what is allowed in the token issuer

Histories are listed with the latest event first.
-/

namespace Verif.Spec.Issuer
open Verif Verif.Issuer

/-- One step of a history. -/
abbrev Event := Ev World Env Call Unit

/-- What `a` mints in a step. -/
def mints (a : Addr) (e : Event) : Nat :=
  match e.call with
  | .exec (.mint _ n) => if e.env.sender = a then n else 0
  | _ => 0

/-- What `a` burns in a step. -/
def burns (a : Addr) (e : Event) : Nat :=
  match e.call with
  | .exec (.burn _ n) => if e.env.sender = a then n else 0
  | _ => 0

/-- The mint allowance given to `a` in a step. -/
def mintGrant (a : Addr) (e : Event) : Option Nat :=
  match e.call with
  | .exec (.setMinter x n) => if x = a then some n else none
  | _ => none

/-- The burn allowance given to `a` in a step. -/
def burnGrant (a : Addr) (e : Event) : Option Nat :=
  match e.call with
  | .exec (.setBurner x n) => if x = a then some n else none
  | _ => none

/-- What was given last, or nothing. -/
def lastGrant (grant : Event → Option Nat) : List Event → Nat
  | [] => 0
  | e :: l => match grant e with
    | some n => n
    | none => lastGrant grant l

/-- What was used since something was given last. -/
def usedSince (grant : Event → Option Nat) (uses : Event → Nat) : List Event → Nat
  | [] => 0
  | e :: l => match grant e with
    | some _ => 0
    | none => uses e + usedSince grant uses l

/-- What anybody mints in a step. -/
def minted (e : Event) : Nat :=
  match e.call with
  | .exec (.mint _ n) => n
  | _ => 0

/-- What anybody burns in a step. -/
def burned (e : Event) : Nat :=
  match e.call with
  | .exec (.burn _ n) => n
  | _ => 0

/-- Everything in circulation of a denomination. -/
def supply (c : Chain) (d : Nat) : Nat := AMap.sum (fun k v => if k.1 = d then v else 0) c.bal

/-- What an account holds. -/
def holds (w : World) (d : Nat) (a : Addr) : Nat := getD0 w.chain.bal (d, a)

/-- Whether the token is frozen: what the last Freeze said. -/
def frozenBy : List Event → Bool
  | [] => false
  | e :: l => match e.call with
    | .exec (.freeze x) => x
    | _ => frozenBy l

/-- Whether `a` is denied: what the last Deny of it said. -/
def deniedBy (a : Addr) : List Event → Bool
  | [] => false
  | e :: l => match e.call with
    | .exec (.deny x status) => if x = a then status else deniedBy a l
    | _ => deniedBy a l

/-- Whether `a` is allowed: what the last Allow of it said; Freeze says it of the contract. -/
def allowedBy (a : Addr) : List Event → Bool
  | [] => false
  | e :: l => match e.call with
    | .exec (.allow x status) => if x = a then status else allowedBy a l
    | .exec (.freeze status) => if e.pre.here = a then status else allowedBy a l
    | _ => allowedBy a l

/-- The contract that is to be asked before transfers: what the last SetBeforeSendHook said. -/
def hookBy : List Event → Option Addr
  | [] => none
  | e :: l => match e.call with
    | .exec (.setHook x) => x
    | _ => hookBy l

/-- What the history says about a transfer. -/
def Passes (log : List Event) (denom src dest token : Nat) : Prop :=
  (frozenBy log = true ∧ token = denom → allowedBy src log = true ∨ allowedBy dest log = true) ∧
    deniedBy src log = false ∧ deniedBy dest log = false

end Verif.Spec.Issuer
