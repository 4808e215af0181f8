import Verif.Model.Vesting
/-!
# What a vesting payment is supposed to do

Amounts are read off the messages sent and received in a history (newest first).
-/

namespace Verif.Spec.Vesting

open Verif.Vesting

abbrev Log := List (Ev World Env Call (List Pay))

/-- What a message pays to the recipient. -/
def payR : Pay → Nat
  | .toRecipient a => a
  | _ => 0

/-- What a message pays to the owner. -/
def payO : Pay → Nat
  | .toOwner _ a => a
  | _ => 0

/-- All that was paid to the recipient. -/
def paidRecipient : Log → Nat
  | [] => 0
  | e :: log => (e.out.map payR).sum + paidRecipient log

/-- All that was paid to the owner. -/
def paidOwner : Log → Nat
  | [] => 0
  | e :: log => (e.out.map payO).sum + paidOwner log

/-- The amount of a registered slash. -/
def slashOf : Call → Nat
  | .msg (.registerSlash _ _ a _) => a
  | _ => 0

/-- All slashes registered. -/
def registered : Log → Nat
  | [] => 0
  | e :: log => slashOf e.call + registered log

/-- The amount of a funding transfer. -/
def fundOf : Call → Nat
  | .msg (.receive a) => a
  | _ => 0

/-- All funding transfers of a cw20 payment. -/
def funded : Log → Nat
  | [] => 0
  | e :: log => fundOf e.call + funded log

/-- Not a transfer to the contract unasked, nor a slash of tokens that were already unbonding or its registration. -/
def plainCall : Call → Bool
  | .donate _ => false
  | .slashUnbonding _ _ => false
  | .msg (.registerSlash _ _ _ u) => !u
  | _ => true

/-- No tokens are sent to the contract unasked, and no slash of tokens that were already unbonding happens or is
registered. -/
def Plain (log : Log) : Prop := ∀ e ∈ log, plainCall e.call = true

/-- The second after the start at which a schedule ends. -/
def scheduleEnd (s : Schedule) (duration : Nat) : Nat :=
  match s with
  | .saturatingLinear => duration
  | .piecewiseLinear steps => (steps.getLast?.map Prod.fst).getD 0

/-- The contract as it is created by `m` in block `b`. -/
def Started (m : InstMsg) (b : Block) (w : World) : Prop :=
  m.total < U128 ∧ instantiate b m = .ok w.c ∧ w.bank = initialBank m ∧ w.bonded = 0 ∧ w.pending = []

/-- What the recipient may still be paid when `v` has vested. -/
def due (vest : Vest) (v : Nat) : Nat := v - vest.claimed - vest.slashed

/-- The balance of the contract at time `x` if nothing else happens: unbonding tokens come back. -/
def balanceAt (w : World) (x : Nat) : Nat :=
  w.bank + ((w.pending.filter (fun p => decide (p.1 ≤ x))).map Prod.snd).sum

/-- Everything that may still be paid to anyone. -/
def remaining (v : Vest) : Nat :=
  match v.status with
  | .unfunded => 0
  | .funded => v.total - v.claimed - v.slashed
  | .canceled ow => ow + due v v.total

/-- The second at which a vest starts. -/
def startSecond (m : InstMsg) (b : Block) : Nat := m.start.getD b.time / 1000000000

end Verif.Spec.Vesting
