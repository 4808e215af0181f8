import Verif.Model.PayrollFactory
/-!
# Specification vocabulary for cw-payroll-factory
-/

namespace Verif.Spec.PayrollFactory
open Verif.PayrollFactory

/-- A transaction of a history. -/
abbrev Event := Ev World Env Call (Option Addr)

/-- The vesting a transaction asks for. -/
def asked : Call → Option VestMsg
  | .msg (.receive _ _ m) => some m
  | .msg (.native m) => some m
  | .cw20Send _ _ _ m => some m
  | _ => none

/-- Who the factory is told wants the vesting: the sender of native coins, or whoever a call of `Receive` names. A token
that moves what it is sent names the sender of the tokens. -/
def named (e : Env) : Call → Addr
  | .msg (.receive s _ _) => s
  | _ => e.sender

/-- `Receive` was called by something else than a token that moves what it reports. -/
def Forged : Call → Prop
  | .msg (.receive _ _ _) => True
  | _ => False

/-- The token is the chain's, or a cw20 that moves what it reports. -/
def Tracked (w : World) : Token → Prop
  | .native _ => True
  | .cw20 t => t ∈ w.honest

/-- What the factory holds of a token. -/
def holds (w : World) (t : Token) : Nat := getD0 w.bal (t, w.self)

/-- What somebody has of a token. -/
def has (w : World) (a : Addr) (t : Token) : Nat := getD0 w.bal (t, a)

/-- What a transaction gives to the factory in a token. -/
def paidIn (w : World) (e : Env) (t : Token) : Call → Nat
  | .msg _ => coinsOf t e.funds
  | .cw20Send c _ n _ => if Token.cw20 c = t then n else 0
  | .transfer c dst n => if c = t ∧ dst = w.self then n else 0

/-- What a creation must hand to the new contract in a token. -/
def owed (t : Token) (m : VestMsg) : Nat := if m.token = t then m.total else 0

end Verif.Spec.PayrollFactory
