import Verif.Model.PrePropose
/-!
# Specification: pre-propose modules

Words used in the statements about deposits and submission policies.
-/

namespace Verif.Spec.PrePropose
open Verif Verif.Voting Verif.PrePropose

variable {M : PropModule}

/-- One step of a history. -/
abbrev Event (M : PropModule) := Ev (World M) (Env M) (Call M) Out

/-- Who may submit: never an address on the denylist; else anyone, or those on the allowlist and, if members may,
whoever has voting power. -/
def MaySubmit (p : Policy) (power : Addr → Nat) (a : Addr) : Prop :=
  match p with
  | .anyone deny => a ∉ deny
  | .specific members allow deny => a ∉ deny ∧ (a ∈ allow ∨ (members = true ∧ power a ≠ 0))

/-- Nobody is both allowed and denied, and someone is allowed. -/
def SoundPolicy (p : Policy) : Prop :=
  match p with
  | .anyone _ => True
  | .specific members allow deny => (∀ a ∈ allow, a ∉ deny) ∧ (members = true ∨ ∃ a, a ∈ allow)

/-- The proposals submitted through the pre-propose module over a history: for each the deposit that was configured when
it was submitted, and who submitted it. -/
def submission (e : Event M) : Option (Nat × Option Deposit × Addr) :=
  match e.call, e.out.newId with
  | .propose _, some id => some (id, e.pre.pre.config.deposit, M.sender e.env.mod)
  | _, _ => none

/-- See `submission`. -/
def submissions (log : List (Event M)) : AMap Nat (Option Deposit × Addr) := log.filterMap submission

/-- The proposal whose completion the step tells the pre-propose module about, and the status told. -/
def delivered (e : Event M) : Option (Nat × Status) :=
  match e.call with
  | .deliver i => e.pre.queue[i]?
  | _ => none

/-- The same, if the pre-propose module accepted. -/
def settled (e : Event M) : Option (Nat × Status) := if e.out.failed then none else delivered e

/-- The completion of proposal `id` was told and accepted. -/
def isSettled (log : List (Event M)) (id : Nat) : Bool :=
  log.any (fun e => match settled e with | some x => decide (x.1 = id) | none => false)

/-- Where a deposit goes: back to the proposer if always refunded, or if refunded when passed and the proposal was
executed; to the DAO otherwise. -/
def receiver (d : Deposit) (proposer dao : Addr) (st : Status) : Addr :=
  if d.refund = .always ∨ (d.refund = .onlyPassed ∧ st = .executed) then proposer else dao

/-- What is to be paid when a proposal submitted under these rules completes. -/
def payment (s : Option (Option Deposit × Addr)) (dao : Addr) (st : Status) : List Pay :=
  match s with
  | some (some d, proposer) => [⟨receiver d proposer dao st, d.token, d.amount⟩]
  | _ => []

/-- The DAO withdraws what the contract has. -/
def isWithdraw (e : Event M) : Prop := ∃ t, e.call = .pre (.withdraw t)

/-- The amount of a deposit in token `t`. -/
def amountIn (t : Token) : Option Deposit → Nat
  | some d => if d.token = t then d.amount else 0
  | none => 0

/-- All deposits in token `t` of proposals whose completion was not yet told and accepted. -/
def owed (log : List (Event M)) (t : Token) : Nat :=
  AMap.sum (fun id x => if isSettled log id then 0 else amountIn t x.1) (submissions log)

/-- Deposits in token `t` that are still to be taken in the running transaction. -/
def toTake (w : World M) (t : Token) : Nat := (w.takes.map (fun x => if x.2.1 = t then x.2.2 else 0)).sum

end Verif.Spec.PrePropose
