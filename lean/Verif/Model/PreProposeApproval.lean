import Verif.Model.PrePropose
/-!
# dao-pre-propose-approval-single

Submissions wait for an approver who turns them into proposals or rejects them. Messages that this contract does not
handle itself go to the pre-propose base (`Verif.Model.PrePropose`). The proposal module is any `PropModule`.
-/

namespace Verif.PrePropose
open Verif Verif.Voting Verif.Hooks

/-- `Proposal`, contracts/pre-propose/dao-pre-propose-approval-single/src/state.rs:22-35, without its status: a
submission. `payload` and `proposer` are what `msg` has. -/
structure Submission (M : PropModule) where
  payload : M.Payload
  proposer : Addr
  deposit : Option Deposit

/-- `ProposalStatus`, contracts/pre-propose/dao-pre-propose-approval-single/src/state.rs:9-19, of a decided
submission. -/
inductive Decision where
  | approved (created : Nat)
  | rejected
  deriving DecidableEq, Repr

/-- The storage this contract adds to the base,
contracts/pre-propose/dao-pre-propose-approval-single/src/state.rs:39-46. -/
structure Approval (M : PropModule) where
  approver : Addr
  current : Nat
  pending : AMap Nat (Submission M)
  completed : AMap Nat (Submission M × Decision)
  created : AMap Nat Nat

/-- The contract with its proposal module and all token balances; see `World`. -/
structure AWorld (M : PropModule) where
  base : World M
  app : Approval M

/-- Steps: the messages of this contract, and everything else as in the base (`Call`), except for the messages that
are handled here. -/
inductive ACall (M : PropModule) where
  | submit (p : M.Payload)
  | approve (id : Nat)
  | reject (id : Nat)
  | updateApprover (a : Addr)
  | addHook (a : Addr)
  | removeHook (a : Addr)
  | base (c : Call M)

/-- What a step does. `approvalId`: the submission it makes. `notified`: who is told of the submission. -/
structure AOut where
  approvalId : Option Nat := none
  newId : Option Nat := none
  pays : List Pay := []
  failed : Bool := false
  notified : List Addr := []
  deriving DecidableEq, Repr

variable {M : PropModule}

/-- `advance_approval_id`, contracts/pre-propose/dao-pre-propose-approval-single/src/state.rs:46-50. A `u64`. -/
def advanceId (n : Nat) : Res Nat := add64 n 1

/-- The deposit part of `execute_propose`,
contracts/pre-propose/dao-pre-propose-approval-single/src/contract.rs:81-87. -/
def takeDeposit (s : Pre) (sender : Addr) (funds : List (Nat × Nat)) : Res (List (Addr × Token × Nat)) :=
  match s.config.deposit with
  | some d => do
    checkPaid d funds
    .ok (takeMsgs d sender)
  | none => .ok []

/-- `execute_propose`, contracts/pre-propose/dao-pre-propose-approval-single/src/contract.rs:71-145. -/
def stepSubmit (w : AWorld M) (e : Env M) (p : M.Payload) : Res (AWorld M × AOut) := do
  let a := M.sender e.mod
  require (decide (a ≠ w.base.here)) .invalid
  let bal ← pullCoins w.base.here a e.funds w.base.bal
  checkCanSubmit w.base.pre.config.policy e.power a
  let takes ← takeDeposit w.base.pre a e.funds
  let id ← advanceId w.app.current
  .ok ({ base := { w.base with bal := bal, takes := w.base.takes ++ takes }
         app := { w.app with current := id
                             pending := w.app.pending.set id ⟨p, a, w.base.pre.config.deposit⟩ } },
       { approvalId := some id, notified := items w.base.pre.hooks })

/-- `execute_approve` with its message, contracts/pre-propose/dao-pre-propose-approval-single/src/contract.rs:145-204. -/
def stepApprove (w : AWorld M) (e : Env M) (id : Nat) : Res (AWorld M × AOut) := do
  let a := M.sender e.mod
  require (decide (a ≠ w.base.here)) .invalid
  let bal ← pullCoins w.base.here a e.funds w.base.bal
  require (decide (w.app.approver = a)) .unauthorized
  let s ← orErr (w.app.pending.get id) .notFound
  let pid := M.count w.base.mod + 1
  let (mod, o) ← M.step w.base.mod (M.calledBy e.mod w.base.here) (M.propose s.proposer s.payload)
  .ok ({ base := { w.base with pre := { w.base.pre with deposits := w.base.pre.deposits.set pid (s.deposit, s.proposer) }
                               mod := mod, bal := bal
                               queue := w.base.queue ++ hooksFor w.base.here o.completed }
         app := { w.app with completed := w.app.completed.set id (s, .approved pid)
                             created := w.app.created.set pid id
                             pending := w.app.pending.erase id } },
       { newId := o.newId })

/-- The messages of `execute_reject`,
contracts/pre-propose/dao-pre-propose-approval-single/src/contract.rs:241-256. -/
def rejectMsgs (dao : Addr) (s : Submission M) : List Pay :=
  match s.deposit with
  | some d => returnMsgs d (if d.refund = .always then s.proposer else dao)
  | none => []

/-- `execute_reject`, contracts/pre-propose/dao-pre-propose-approval-single/src/contract.rs:208-262. -/
def stepReject (w : AWorld M) (e : Env M) (id : Nat) : Res (AWorld M × AOut) := do
  let a := M.sender e.mod
  require (decide (a ≠ w.base.here)) .invalid
  let bal ← pullCoins w.base.here a e.funds w.base.bal
  require (decide (w.app.approver = a)) .unauthorized
  let s ← orErr (w.app.pending.get id) .notFound
  let pays := rejectMsgs w.base.pre.dao s
  let bal ← payAll w.base.here pays bal
  .ok ({ base := { w.base with bal := bal }
         app := { w.app with completed := w.app.completed.set id (s, .rejected)
                             pending := w.app.pending.erase id } },
       { pays := pays })

/-- `execute_update_approver`, contracts/pre-propose/dao-pre-propose-approval-single/src/contract.rs:264-280. Attached
coins stay with the contract. -/
def stepUpdateApprover (w : AWorld M) (e : Env M) (n : Addr) : Res (AWorld M × AOut) := do
  let a := M.sender e.mod
  require (decide (a ≠ w.base.here)) .invalid
  let bal ← pullCoins w.base.here a e.funds w.base.bal
  require (decide (w.app.approver = a)) .unauthorized
  .ok ({ base := { w.base with bal := bal }, app := { w.app with approver := n } }, {})

/-- `execute_add_approver_hook` and `execute_remove_approver_hook`,
contracts/pre-propose/dao-pre-propose-approval-single/src/contract.rs:283-333. -/
def stepHook (w : AWorld M) (e : Env M) (f : HookList → Res HookList) : Res (AWorld M × AOut) := do
  let a := M.sender e.mod
  require (decide (a ≠ w.base.here)) .invalid
  let bal ← pullCoins w.base.here a e.funds w.base.bal
  require (decide (w.app.approver = a ∨ w.base.pre.dao = a)) .unauthorized
  let hooks ← f w.base.pre.hooks
  .ok ({ w with base := { w.base with bal := bal, pre := { w.base.pre with hooks := hooks } } }, {})

/-- The calls that go to the base, contracts/pre-propose/dao-pre-propose-approval-single/src/contract.rs:64-65:
everything but proposing, changing hooks and extensions. -/
def toBase : Call M → Bool
  | .propose _ => false
  | .pre (.addHook _) => false
  | .pre (.removeHook _) => false
  | .pre .extension => false
  | _ => true

/-- A step of the base. -/
def stepBase (w : AWorld M) (e : Env M) (c : Call M) : Res (AWorld M × AOut) := do
  require (toBase c) .invalid
  let (b, o) ← step w.base e c
  .ok ({ w with base := b }, { newId := o.newId, pays := o.pays, failed := o.failed })

/-- `execute`, contracts/pre-propose/dao-pre-propose-approval-single/src/contract.rs:45-69, and all that surrounds
the contract. -/
def astep (w : AWorld M) (e : Env M) : ACall M → Res (AWorld M × AOut)
  | .submit p => stepSubmit w e p
  | .approve id => stepApprove w e id
  | .reject id => stepReject w e id
  | .updateApprover a => stepUpdateApprover w e a
  | .addHook a => stepHook w e (fun h => addHook h a)
  | .removeHook a => stepHook w e (fun h => removeHook h a)
  | .base c => stepBase w e c

/-- `instantiate`, contracts/pre-propose/dao-pre-propose-approval-single/src/contract.rs:30-42: nothing submitted yet,
some approver. -/
def AInit (M : PropModule) (b : Block) (w : AWorld M) : Prop :=
  Init M M.Reachable b w.base ∧ w.app.current = 0 ∧ w.app.pending = [] ∧ w.app.completed = [] ∧ w.app.created = []

/-- Histories of the contract with its proposal module. -/
def asys (M : PropModule) : Sys (AWorld M) (Env M) (ACall M) AOut where
  init := AInit M
  block e := M.block e.mod
  step := astep

end Verif.PrePropose
