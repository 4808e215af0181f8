import Verif.Model.PreProposeApproval
import Verif.Spec.PrePropose
/-!
# Specification: submissions that wait for an approver
-/

namespace Verif.Spec.Approval
open Verif Verif.Voting Verif.PrePropose

variable {M : PropModule}

/-- One step of a history. -/
abbrev Event (M : PropModule) := Ev (AWorld M) (Env M) (ACall M) AOut

/-- The submission a step makes: its number, what is proposed, by whom, and the deposit configured then. -/
def submission (e : Event M) : Option (Nat × Submission M) :=
  match e.call, e.out.approvalId with
  | .submit p, some id => some (id, ⟨p, M.sender e.env.mod, e.pre.base.pre.config.deposit⟩)
  | _, _ => none

/-- All submissions of a history. -/
def submissions (log : List (Event M)) : AMap Nat (Submission M) := log.filterMap submission

/-- The submission a step decides. -/
def decides (e : Event M) : Option Nat :=
  match e.call with
  | .approve id => some id
  | .reject id => some id
  | _ => none

/-- The submissions decided over a history. -/
def decided (log : List (Event M)) : List Nat := log.filterMap decides

/-- The proposal a step makes of a submission: (proposal, submission). -/
def approval (e : Event M) : Option (Nat × Nat) :=
  match e.call, e.out.newId with
  | .approve id, some pid => some (pid, id)
  | _, _ => none

/-- All proposals made of submissions over a history. -/
def approvals (log : List (Event M)) : AMap Nat Nat := log.filterMap approval

/-- The step rejects submission `id`. -/
def rejects (e : Event M) (id : Nat) : Bool :=
  match e.call with
  | .reject i => decide (i = id)
  | _ => false

/-- The proposal whose completion the step tells the contract about, and the status told. -/
def delivered (e : Event M) : Option (Nat × Status) :=
  match e.call with
  | .base (.deliver i) => e.pre.base.queue[i]?
  | _ => none

/-- The same, if the contract accepted. -/
def settled (e : Event M) : Option (Nat × Status) := if e.out.failed then none else delivered e

/-- The completion of proposal `pid` was told and accepted. -/
def isSettled (log : List (Event M)) (pid : Nat) : Bool :=
  log.any (fun e => match settled e with | some x => decide (x.1 = pid) | none => false)

/-- Submission `id` was rejected, or approved and the completion of its proposal was told and accepted. -/
def finished (log : List (Event M)) (id : Nat) : Bool :=
  log.any (fun e => rejects e id) || (approvals log).any (fun x => decide (x.2 = id) && isSettled log x.1)

/-- All deposits in token `t` of submissions that are not finished. -/
def owed (log : List (Event M)) (t : Token) : Nat :=
  AMap.sum (fun id s => if finished log id then 0 else Spec.PrePropose.amountIn t s.deposit) (submissions log)

/-- What rejecting pays: the deposit, to the proposer if it is always refunded, else to the DAO. -/
def rejectPayment (s : Submission M) (dao : Addr) : List Pay :=
  match s.deposit with
  | some d => [⟨if d.refund = .always then s.proposer else dao, d.token, d.amount⟩]
  | none => []

/-- The DAO withdraws what the contract has. -/
def isWithdraw (e : Event M) : Prop := ∃ t, e.call = .base (.pre (.withdraw t))

end Verif.Spec.Approval
