import Verif.Model.TokenSwap
/-!
# What a token swap is supposed to do
-/

namespace Verif.Spec.TokenSwap

open Verif.TokenSwap

abbrev Log := List (Ev World Block Call (List Pay))

/-- What a transaction puts into the swap: coins sent with `Fund`, cw20 tokens sent with `Send`. -/
def paysIn (p : Addr) (t : Token) : Call → Nat
  | .fund a coins => if a = p then (coins.map (fun c => if Token.native c.1 = t then c.2 else 0)).sum else 0
  | .send k a n => if a = p ∧ Token.cw20 k = t then n else 0
  | _ => 0

/-- What a payment of the swap gives to `p`. -/
def gives (p : Addr) (t : Token) (x : Pay) : Nat := if x.to = p ∧ x.token = t then x.amount else 0

/-- All that `p` paid into the swap in a token. -/
def paid (p : Addr) (t : Token) : Log → Nat
  | [] => 0
  | e :: log => paysIn p t e.call + paid p t log

/-- All that the swap paid to `p` in a token. -/
def received (p : Addr) (t : Token) : Log → Nat
  | [] => 0
  | e :: log => (e.out.map (gives p t)).sum + received p t log

/-- The promise of a party, in a token. -/
def promise (p : Party) (t : Token) : Nat := if p.token = t then p.amount else 0

/-- The terms on which a swap was made. -/
def terms (s : State) : (Addr × Token × Nat) × (Addr × Token × Nat) :=
  ((s.one.address, s.one.token, s.one.amount), (s.two.address, s.two.token, s.two.amount))

/-- Nobody is owed anything: each got back what they paid. -/
def Even (p : Party) (log : Log) : Prop := ∀ t, paid p.address t log = received p.address t log

/-- The party has paid exactly its promise and got nothing for it yet. -/
def Waiting (p : Party) (log : Log) : Prop :=
  ∀ t, paid p.address t log = received p.address t log + promise p t

/-- The party has paid exactly its promise and received exactly that of the other. -/
def Swapped (p other : Party) (log : Log) : Prop :=
  ∀ t, paid p.address t log + promise other t = received p.address t log + promise p t

end Verif.Spec.TokenSwap
