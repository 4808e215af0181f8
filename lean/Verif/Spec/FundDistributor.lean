import Verif.Model.FundDistributor
/-!
# What a fund distributor is supposed to do
-/

namespace Verif.Spec.FundDistributor

open Verif.FundDistributor

abbrev Log := List (Ev World Env Call (List Pay))

/-- The share of a member: `funds * (power / total)`, with the fraction rounded down to 18 digits and the product to
whole tokens. -/
def fairShare (funds power total : Nat) : Nat := funds * (power * 10 ^ 18 / total) / 10 ^ 18

/-- What a transaction adds to the pool. -/
def funds (t : Token) : Call → Nat
  | .fundNative _ coins => coinsOf t coins
  | .fundCw20 k _ n => if Token.cw20 k = t then n else 0
  | _ => 0

/-- All that was paid into the pool. -/
def funded (t : Token) (log : Log) : Nat := (log.map (fun e => funds t e.call)).sum

/-- All that was paid out. -/
def paidOut (t : Token) (log : Log) : Nat := (log.map (fun e => payOf t e.out)).sum

/-- All that was paid to one member. -/
def received (a : Addr) (t : Token) (log : Log) : Nat := (log.map (fun e => payTo a t e.out)).sum

/-- A redistribution of what is left. -/
def starts : Call → Bool
  | .redistribute _ _ => true
  | _ => false

/-- The transactions since the last redistribution. -/
def thisRound (log : Log) : Log := log.takeWhile (fun e => !starts e.call)

/-- The pool of the current round: what was funded, less what earlier rounds paid out. -/
def pool (t : Token) (log : Log) : Nat := funded t log - (paidOut t log - paidOut t (thisRound log))

/-- A successful claim of `t` by `a`. -/
def claimsFor (a : Addr) (t : Token) : Call → Bool
  | .claimCw20 s ts => decide (s = a) && (ts.map Token.cw20).contains t
  | .claimNative s ds => decide (s = a) && (ds.map Token.native).contains t
  | .claimAll s => decide (s = a)
  | _ => false

/-- During the history, the voting module answers `P h a` when asked for the power of `a` at the distribution height
`h` in force. (A height in the past; the properties of the voting modules say that such an answer never changes.) -/
def Answers (P : Nat → Addr → Nat) (log : Log) : Prop :=
  ∀ e ∈ log, ∀ a, e.env.power a e.pre.c.distHeight = P e.pre.c.distHeight a

/-- No set of members has more power, at a distribution height in force during the history, than the recorded total. -/
def Within (P : Nat → Addr → Nat) (w : World) (log : Log) : Prop :=
  ∀ h, (h = w.c.distHeight ∨ ∃ e ∈ log, e.pre.c.distHeight = h) →
    ∀ as : List Addr, as.Nodup → (as.map (P h)).sum ≤ w.c.totalPower

end Verif.Spec.FundDistributor
