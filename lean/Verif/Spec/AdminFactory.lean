import Verif.Model.AdminFactory
/-!
# Specification vocabulary for cw-admin-factory
-/

namespace Verif.Spec.AdminFactory
open Verif.AdminFactory

/-- A step of a history. -/
abbrev Event := Ev World Env Call (Option Addr)

/-- Nothing is under way: the end of a transaction. -/
def Settled (w : World) : Prop := w.stack = []

/-- The step asked the factory for the contract at `a`. -/
def Asked (a : Addr) (ev : Event) : Prop := ∃ k, ev.call = .begin k a

/-- The contract itself named another admin. -/
def GaveUp (a : Addr) (ev : Event) : Prop := ∃ new, ev.call = .setAdmin a new ∧ ev.env.sender = a

/-- A call of `Instantiate2ContractWithSelfAdmin`. -/
def Uses2 (ev : Event) : Prop := ∃ x a, ev.call = .begin (.two x) a

/-- What the factory holds of a token. -/
def holds (w : World) (t : Token) : Nat := getD0 w.bal (t, w.self)

end Verif.Spec.AdminFactory
