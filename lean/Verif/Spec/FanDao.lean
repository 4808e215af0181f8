import Verif.Model.FanDao
/-!
# Specification: a DAO with a fan token

In terms of what can be observed: what accounts hold, what the chain says of the token, and who sent what.
-/

namespace Verif.Spec.FanDao
open Verif Verif.FanDao

/-- One step of a history, latest first in a list. -/
abbrev Event := Ev World FanToken.Env Call TokenStaked.Out

/-- What `a` holds of the token. -/
def holds (w : World) (a : Addr) : Nat := getD0 w.chain.bal (w.denom, a)

/-- Everything there is of the token, as the bank says. -/
def inCirculation (w : World) : Nat := supply w.chain.bal w.denom

/-- All amounts of a list for others than `dao`. -/
def forOthers (dao : Addr) (l : List (Addr × Nat)) : Nat := ((l.filter (fun x => x.1 ≠ dao)).map (·.2)).sum

/-- `dao` sends nothing at all. -/
def Idle (dao : Addr) (log : List Event) : Prop := ∀ e ∈ log, e.env.sender ≠ dao

/-- Who may mint the token. -/
def minter (w : World) : Option Addr := (w.chain.tokens.get w.denom).map (·.minter)

/-- A transaction by which its sender makes `a` the minter of the token. -/
def HandsOver (e : Event) (a : Addr) : Prop := e.call = .fan (.module (.setMinter a)) ∧ e.env.denom = e.pre.denom

/-- A transaction by which its sender mints `n` of the token. -/
def Mints (e : Event) (n : Nat) : Prop := ∃ r, e.call = .fan (.module (.mint r n)) ∧ e.env.denom = e.pre.denom

end Verif.Spec.FanDao
