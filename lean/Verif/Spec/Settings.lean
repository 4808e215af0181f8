import Verif.Base.History
/-!
# What the settings of a contract are, told from its history

No contract is mentioned here. A history is the list of its successful calls, newest first.
-/

namespace Verif.Settings
open Verif

/-- What a call does to a list of receivers. -/
inductive Edit where
  | keep
  /-- One more receiver, at the end. -/
  | add (a : Addr)
  /-- Without that receiver. -/
  | remove (a : Addr)
  /-- Without the receiver at that place, counted from 0. -/
  | drop (i : Nat)
  deriving DecidableEq, Repr

/-- The list after the call. -/
def Edit.apply : Edit → List Addr → List Addr
  | .keep, l => l
  | .add a, l => l ++ [a]
  | .remove a, l => l.erase a
  | .drop i, l => l.eraseIdx i

/-- The receivers after the calls `cs`, when there were none before. -/
def receivers {C : Type} (edit : C → Edit) : List C → List Addr
  | [] => []
  | c :: cs => (edit c).apply (receivers edit cs)

/-- The value of a setting after the calls `cs`: what the last call that sets it says, or the value `v0` it started
with. -/
def value {C V : Type} (sets : C → Option V) (v0 : V) (cs : List C) : V := (cs.findSome? sets).getD v0

end Verif.Settings
