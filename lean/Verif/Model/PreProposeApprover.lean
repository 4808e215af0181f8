import Verif.Model.PreProposeModules
import Verif.Model.PreProposeApproval
/-!
# dao-pre-propose-approver

Another DAO approves the submissions of dao-pre-propose-approval-single. Its pre-propose module is told of every
submission, makes a proposal of it in its own DAO's proposal module (`M2`), and approves or rejects the submission when
that proposal completes.

The messages between the contracts (the submitted hook and the completion hook) run later in the same transaction. As in
`Verif.Model.PrePropose` they wait in `mirrors` and `queue` and run at any later time, with any calls in between.
-/

namespace Verif.PrePropose
open Verif Verif.Voting Verif.Hooks

/-- The storage of the contract, contracts/pre-propose/dao-pre-propose-approver/src/state.rs:4-9, with
`proposal_module` and `dao` of the base. `approval`: the approval contract. `toSub`: PROPOSAL_ID_TO_PRE_PROPOSE_ID,
`toProp`: PRE_PROPOSE_ID_TO_PROPOSAL_ID. Its configuration has no deposit and cannot change. -/
structure Approver where
  module : Addr
  dao : Addr
  approval : Addr
  toSub : AMap Nat Nat
  toProp : AMap Nat Nat
  deriving DecidableEq, Repr

/-- What `execute_proposal_completed` tells the approval contract to do. -/
inductive Verdict where
  | approve (id : Nat)
  | reject (id : Nat)
  deriving DecidableEq, Repr

/-- The approval contract with its DAO (`one`), the approver contract at address `here` and its DAO's proposal module
`mod`. `queue`: completion hooks of `mod` that have not run. `mirrors`: submitted hooks for this contract that have not
run. -/
structure Two (M1 M2 : PropModule) where
  one : AWorld M1
  here : Addr
  appr : Approver
  mod : M2.St
  queue : List (Nat × Status)
  mirrors : List Nat

/-- What a transaction sees of the two DAOs. -/
structure TEnv (M1 M2 : PropModule) where
  one : Env M1
  two : M2.Env

/-- Steps. `one`: a call of the approval contract or its DAO, by anybody but the approver contract. `two`: a call of
the approving DAO's proposal module, by anybody but the approver contract. `mirror`, `deliver`: a message that waits
runs. `reset`: the message ResetApprover. -/
inductive TCall (M1 M2 : PropModule) where
  | one (c : ACall M1)
  | two (c : M2.Call)
  | mirror (i : Nat)
  | deliver (i : Nat)
  | reset

/-- What a step does. `one`: in the approval contract. `newId`: the proposal it makes in the approving DAO. -/
structure TOut where
  one : Option AOut := none
  newId : Option Nat := none
  failed : Bool := false
  deriving DecidableEq, Repr

variable {M1 M2 : PropModule}

/-- `execute_propose`, contracts/pre-propose/dao-pre-propose-approver/src/contract.rs:108-151, without its message. -/
def Approver.propose (s : Approver) (sender : Addr) (next id : Nat) : Res Approver := do
  require (decide (sender = s.approval)) .unauthorized
  .ok { s with toSub := s.toSub.set next id, toProp := s.toProp.set id next }

/-- `execute_proposal_completed`, contracts/pre-propose/dao-pre-propose-approver/src/contract.rs:153-198. -/
def Approver.completed (s : Approver) (sender : Addr) (pid : Nat) (st : Status) : Res Verdict := do
  require (decide (sender = s.module)) .unauthorized
  let id ← orErr (s.toSub.get pid) .notFound
  match st with
  | .closed => .ok (.reject id)
  | .executed => .ok (.approve id)
  | _ => .error .invalid

/-- The contract calls the approval contract: it is the sender, and attaches nothing. -/
def Env.as (e : Env M1) (a : Addr) : Env M1 := { e with mod := M1.calledBy e.mod a, funds := [] }

/-- The submitted hooks a step of the approval contract sends to this contract,
contracts/pre-propose/dao-pre-propose-approval-single/src/contract.rs:107-124. -/
def mirrorsFor (here : Addr) (o : AOut) : List Nat :=
  match o.approvalId with
  | some id => if here ∈ o.notified then [id] else []
  | none => []

/-- A call of the approval contract, its DAO's proposal module or a token. -/
def tstepOne (w : Two M1 M2) (e : TEnv M1 M2) (c : ACall M1) : Res (Two M1 M2 × TOut) := do
  require (decide (M1.sender e.one.mod ≠ w.here)) .invalid
  let (one, o) ← astep w.one e.one c
  .ok ({ w with one := one, mirrors := w.mirrors ++ mirrorsFor w.here o }, { one := some o })

/-- A call of the approving DAO's proposal module. -/
def tstepTwo (w : Two M1 M2) (e : TEnv M1 M2) (c : M2.Call) : Res (Two M1 M2 × TOut) := do
  require (decide (M2.sender e.two ≠ w.here)) .invalid
  require (M2.outside c) .invalid
  let (mod, o) ← M2.step w.mod e.two c
  .ok ({ w with mod := mod, queue := w.queue ++ hooksFor w.here o.completed }, { newId := o.newId })

/-- A submitted hook runs: the contract proposes, in the name of the approval contract, contents `f` makes of the
submission's: the same title and description, and no messages
(contracts/pre-propose/dao-pre-propose-approver/src/contract.rs:122-134). -/
def tstepMirror (f : M1.Payload → M2.Payload) (p : Nat → Option M1.Payload) (w : Two M1 M2) (e : TEnv M1 M2) (i : Nat) :
    Res (Two M1 M2 × TOut) :=
  match w.mirrors[i]? with
  | none => .error .notFound
  | some id => do
    let pl ← orErr (p id) .notFound
    let appr ← w.appr.propose w.one.base.here (M2.count w.mod + 1) id
    let (mod, o) ← M2.step w.mod (M2.calledBy e.two w.here) (M2.propose w.one.base.here (f pl))
    .ok ({ w with appr := appr, mod := mod, queue := w.queue ++ hooksFor w.here o.completed
                  mirrors := w.mirrors.eraseIdx i }, { newId := o.newId })

/-- The contents a submission has, as told to the hooks: they are the recorded ones, pending or decided. -/
def payloadOf (w : AWorld M1) (id : Nat) : Option M1.Payload :=
  match w.app.pending.get id with
  | some s => some s.payload
  | none => (w.app.completed.get id).map (fun x => x.1.payload)

/-- The call of the approval contract that a verdict makes. -/
def Verdict.call : Verdict → ACall M1
  | .approve id => .approve id
  | .reject id => .reject id

/-- What the completion hook does. -/
def runVerdict (w : Two M1 M2) (e : TEnv M1 M2) (pid : Nat) (st : Status) : Res (AWorld M1 × AOut) := do
  let v ← w.appr.completed w.appr.module pid st
  astep w.one (e.one.as w.here) v.call

/-- A completion hook runs. When it or a message of it fails its effects are undone and the proposal module drops the
pre-propose module (packages/dao-hooks/src/proposal.rs:117-126). -/
def tstepDeliver (w : Two M1 M2) (e : TEnv M1 M2) (i : Nat) : Res (Two M1 M2 × TOut) :=
  match w.queue[i]? with
  | none => .error .notFound
  | some (pid, st) =>
    match runVerdict w e pid st with
    | .ok (one, o) => .ok ({ w with one := one, queue := w.queue.eraseIdx i }, { one := some o })
    | .error _ => do
      let mod ← M2.hookFailed w.mod
      .ok ({ w with mod := mod, queue := w.queue.eraseIdx i }, { failed := true })

/-- `execute_reset_approver` with its messages,
contracts/pre-propose/dao-pre-propose-approver/src/contract.rs:200-235. -/
def tstepReset (w : Two M1 M2) (e : TEnv M1 M2) : Res (Two M1 M2 × TOut) := do
  require (decide (M2.sender e.two = w.appr.dao)) .unauthorized
  let (one1, _) ← astep w.one (e.one.as w.here) (.removeHook w.here)
  let (one, o) ← astep one1 (e.one.as w.here) (.updateApprover w.appr.dao)
  .ok ({ w with one := one }, { one := some o })

/-- A step of the contracts of both DAOs. -/
def tcall (f : M1.Payload → M2.Payload) (w : Two M1 M2) (e : TEnv M1 M2) : TCall M1 M2 → Res (Two M1 M2 × TOut)
  | .one c => tstepOne w e c
  | .two c => tstepTwo w e c
  | .mirror i => tstepMirror f (payloadOf w.one) w e i
  | .deliver i => tstepDeliver w e i
  | .reset => tstepReset w e

/-- All of a step happens in one block. -/
def tstep (f : M1.Payload → M2.Payload) (w : Two M1 M2) (e : TEnv M1 M2) (c : TCall M1 M2) : Res (Two M1 M2 × TOut) := do
  require (decide (M2.block e.two = M1.block e.one.mod)) .invalid
  tcall f w e c

/-- `instantiate`, contracts/pre-propose/dao-pre-propose-approver/src/contract.rs:31-82: the contract is new, in two
DAOs that may have been there before; the approval contract does not call itself. -/
def TInit (M1 M2 : PropModule) (b : Block) (w : Two M1 M2) : Prop :=
  (∃ b1 l, (asys M1).Reach w.one b1 l ∧ b1.le b) ∧ M2.Reachable b w.mod ∧ w.queue = [] ∧ w.mirrors = [] ∧
    w.appr.toSub = [] ∧ w.appr.toProp = [] ∧ w.appr.approval = w.one.base.here ∧ w.here ≠ w.one.base.here

/-- Histories of the contracts of both DAOs. -/
def tsys (M1 M2 : PropModule) (f : M1.Payload → M2.Payload) : Sys (Two M1 M2) (TEnv M1 M2) (TCall M1 M2) TOut where
  init := TInit M1 M2
  block e := M1.block e.one.mod
  step := tstep f

/-- What the contract makes of the contents of a submission: no messages and no vote,
contracts/pre-propose/dao-pre-propose-approver/src/contract.rs:120-135. -/
def sanitize (p : SinglePayload) : SinglePayload := ⟨p.content, [], none, p.sizeOk⟩

end Verif.PrePropose
