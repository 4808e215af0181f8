import Verif.Model.PreProposeApprover
import Verif.Spec.PreProposeApproval
/-!
# Specification: another DAO approves
-/

namespace Verif.Spec.Approver
open Verif Verif.Voting Verif.PrePropose

variable {M1 M2 : PropModule}

/-- One step of a history. -/
abbrev Event (M1 M2 : PropModule) := Ev (Two M1 M2) (TEnv M1 M2) (TCall M1 M2) TOut

/-- The submission the approver contract is told of. -/
def submitted (e : Event M1 M2) : Option Nat :=
  match e.call, e.out.one with
  | .one (.submit _), some o => match o.approvalId with
    | some id => if e.pre.here ∈ o.notified then some id else none
    | none => none
  | _, _ => none

/-- The mirror a step makes: (proposal of the approving DAO, submission). -/
def mirror (e : Event M1 M2) : Option (Nat × Nat) :=
  match e.call with
  | .mirror i => match e.pre.mirrors[i]?, e.out.newId with
    | some id, some pid => some (pid, id)
    | _, _ => none
  | _ => none

/-- All mirrors of a history. -/
def mirrored (log : List (Event M1 M2)) : AMap Nat Nat := log.filterMap mirror

/-- The proposal of the approving DAO whose completion the step tells the approver contract about. -/
def delivered (e : Event M1 M2) : Option (Nat × Status) :=
  match e.call with
  | .deliver i => e.pre.queue[i]?
  | _ => none

/-- The submission was pending before and is approved after the step, in the approval contract. -/
def Approves (e : Event M1 M2) (id : Nat) : Prop :=
  ∃ s k, e.pre.one.app.pending.get id = some s ∧ e.post.one.app.pending.get id = none ∧
    e.post.one.app.completed.get id = some (s, .approved k)

/-- The submission was pending before and is rejected after the step, in the approval contract. -/
def Rejects (e : Event M1 M2) (id : Nat) : Prop :=
  ∃ s, e.pre.one.app.pending.get id = some s ∧ e.post.one.app.pending.get id = none ∧
    e.post.one.app.completed.get id = some (s, .rejected)

end Verif.Spec.Approver
