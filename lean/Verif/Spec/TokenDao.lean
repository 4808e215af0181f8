import Verif.Model.TokenDao
/-!
# Specification: a DAO with a token of its own

In terms of what can be observed: what accounts hold, the supply, and who sent what.
-/

namespace Verif.Spec.TokenDao
open Verif Verif.TokenDao

/-- One step of a history, latest first in a list. -/
abbrev Event := Ev World Issuer.Env Call TokenStaked.Out

/-- What `a` holds of the token. -/
def holds (w : World) (a : Addr) : Nat := getD0 w.iss.chain.bal (w.denom, a)

/-- Everything there is of the token. -/
def inCirculation (w : World) : Nat := supply w.iss.chain w.denom

/-- All amounts of a list. -/
def sumOf (l : List (Addr × Nat)) : Nat := (l.map (·.2)).sum

/-- The amounts a list has for `a`, which may be in it more than once. -/
def listed (l : List (Addr × Nat)) (a : Addr) : Nat := ((l.filter (fun x => x.1 = a)).map (·.2)).sum

/-- What the message that creates the token says `a` gets. -/
def promised (t : NewToken) (dao a : Addr) : Nat := listed t.balances a + if a = dao then t.daoBalance.getD 0 else 0

/-- A threshold that makes sense for the coins handed out: a percentage above 0 and up to 100, or a count of at least one
and at most those coins. -/
def Sensible (th : Option Active.ActiveThreshold) (coins : Nat) : Prop :=
  match th with
  | none => True
  | some (.percentage p) => 0 < p ∧ p ≤ DEC_ONE
  | some (.absolute n) => 0 < n ∧ n ≤ coins

/-- An unstaking duration is at least one second or one block. -/
def Lasting : Option Duration → Prop
  | none => True
  | some (.height n) => 0 < n
  | some (.time n) => 0 < n

/-- The owner of the token's issuer. -/
def owner (w : World) : Option Addr := w.iss.st.owner.owner

/-- What is taken from the voting module's account without the module's doing: coins its issuer, or whoever administers
the denomination, burns or moves from there. -/
def seized : List Event → Nat
  | [] => 0
  | e :: log =>
    seized log +
      match e.call with
      | .issuer (.force n src _) => if src = e.pre.self then n else 0
      | .issuer (.burn src n) => if src = e.pre.self ∧ e.pre.iss.chain.burnsAny = true then n else 0
      | .chain (.force d n src _) => if src = e.pre.self ∧ d = e.pre.denom then n else 0
      | .chain (.burn d n src) => if src = e.pre.self ∧ d = e.pre.denom ∧ e.pre.iss.chain.burnsAny = true then n else 0
      | _ => 0

/-- `dao` sends nothing to the issuer of the token. -/
def Silent (dao : Addr) (log : List Event) : Prop := ∀ e ∈ log, ∀ m, e.call = .issuer m → e.env.sender ≠ dao

/-- `dao` sends nothing at all. -/
def Idle (dao : Addr) (log : List Event) : Prop := ∀ e ∈ log, e.env.sender ≠ dao

/-- The chain lets the module send its coins to `a`: the issuer is not the listener of the denomination, or it does not
object. -/
def Unhindered (w : World) (a : Addr) : Prop :=
  w.iss.chain.hook.get w.denom = some w.iss.here → w.iss.st.beforeSend w.self a w.denom = .ok ()

/-- `staked` of `all` coins reach a threshold: a percentage up to a billionth of a coin, as `C32_percentage` shows. -/
def Met (th : Option Active.ActiveThreshold) (staked all : Nat) : Prop :=
  match th with
  | none => True
  | some (.absolute n) => n ≤ staked
  | some (.percentage p) => p * all < staked * 10 ^ 18 + 10 ^ 9

end Verif.Spec.TokenDao
