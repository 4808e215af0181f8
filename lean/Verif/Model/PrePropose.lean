import Verif.Model.Voting
import Verif.Model.Hooks
import Verif.Base.History
import Verif.Base.Coins
/-!
# Pre-propose modules

dao-pre-propose-base, which dao-pre-propose-single and dao-pre-propose-multiple wrap without change
(contracts/pre-propose/dao-pre-propose-single/src/contract.rs:66-124,
contracts/pre-propose/dao-pre-propose-multiple/src/contract.rs:64-122: they only fill in the sender as the
proposer), running next to the proposal module it belongs to.

The proposal module is any `PropModule`; `Verif.Model.PreProposeModules` makes dao-proposal-single and
dao-proposal-multiple such modules.

A transaction is a tree of messages. The completion hook of the proposal module and the `TransferFrom` that takes
a cw20 deposit are messages that run later in the same transaction, after others that may call anything. Here
they wait in `queue` and `takes` and run at any later time, in any order, with any calls in between, which covers
every order the runtime can produce. Between transactions both are empty.
-/

namespace Verif.PrePropose
open Verif Verif.Voting Verif.Hooks

/-- `DepositRefundPolicy`, packages/dao-voting/src/deposit.rs:67-74. -/
inductive Refund where
  | always
  | onlyPassed
  | never
  deriving DecidableEq, Repr

/-- `CheckedDepositInfo`, packages/dao-voting/src/deposit.rs:81-92. -/
structure Deposit where
  token : Token
  amount : Nat
  refund : Refund
  deriving DecidableEq, Repr

/-- `PreProposeSubmissionPolicy`, packages/dao-voting/src/pre_propose.rs:70-85. -/
inductive Policy where
  | anyone (deny : List Addr)
  | specific (members : Bool) (allow : List Addr) (deny : List Addr)
  deriving DecidableEq, Repr

/-- `PreProposeSubmissionPolicy::validate`, packages/dao-voting/src/pre_propose.rs:104-126. -/
def Policy.validate : Policy → Res Unit
  | .anyone _ => .ok ()
  | .specific members allow deny => do
    require (!deny.any (fun a => allow.any (fun b => a == b))) .invalid
    require (members || !allow.isEmpty) .invalid

/-- `Config`, packages/dao-pre-propose-base/src/state.rs:11-17. -/
structure Config where
  deposit : Option Deposit
  policy : Policy
  deriving DecidableEq, Repr

/-- The storage of the contract, packages/dao-pre-propose-base/src/state.rs:19-32. `proposal_module` and `dao` are
set once at instantiation. -/
structure Pre where
  module : Addr
  dao : Addr
  config : Config
  deposits : AMap Nat (Option Deposit × Addr)
  hooks : HookList
  deriving DecidableEq, Repr

/-- `into_checked`, packages/dao-voting/src/deposit.rs:96-151: the amount must not be zero. That the token exists
is not modelled. -/
def checkDeposit : Option Deposit → Res Unit
  | none => .ok ()
  | some d => require (decide (d.amount ≠ 0 ∧ d.amount < U128)) .invalid

/-- `instantiate`, packages/dao-pre-propose-base/src/execute.rs:41-86: the sender is the proposal module and `dao`
what it answers to a query for its DAO. -/
def instantiate (sender dao : Addr) (c : Config) : Res Pre := do
  checkDeposit c.deposit
  c.policy.validate
  .ok { module := sender, dao := dao, config := c, deposits := [], hooks := none }

/-- `check_can_submit`, packages/dao-pre-propose-base/src/execute.rs:457-501. `power a` is the voting power the DAO
reports for `a` now. -/
def checkCanSubmit (p : Policy) (power : Addr → Nat) (a : Addr) : Res Unit :=
  match p with
  | .anyone deny => require (!deny.contains a) .unauthorized
  | .specific members allow deny =>
    if deny.contains a then .error .unauthorized
    else if allow.contains a then .ok ()
    else if members then require (decide (power a ≠ 0)) .unauthorized
    else .error .unauthorized

/-- `must_pay` of cw-utils: exactly one coin, of the denomination wanted. -/
def mustPay (funds : List (Nat × Nat)) (denom : Nat) : Res Nat :=
  match funds with
  | [(d, n)] => if d = denom ∧ n ≠ 0 then .ok n else .error .invalid
  | _ => .error .invalid

/-- `check_native_deposit_paid`, packages/dao-voting/src/deposit.rs:155-179. -/
def checkPaid (d : Deposit) (funds : List (Nat × Nat)) : Res Unit :=
  match d.token with
  | .native denom => do
    let paid ← mustPay funds denom
    require (decide (paid = d.amount)) .invalid
  | .cw20 _ => .ok ()

/-- `get_take_deposit_messages`, packages/dao-voting/src/deposit.rs:181-214: who is to pay, in which token, and how
much. -/
def takeMsgs (d : Deposit) (payer : Addr) : List (Addr × Token × Nat) :=
  match d.token with
  | .native _ => []
  | .cw20 c => if d.amount = 0 then [] else [(payer, .cw20 c, d.amount)]

/-- `get_return_deposit_message`, packages/dao-voting/src/deposit.rs:216-223. -/
def returnMsgs (d : Deposit) (dst : Addr) : List Pay :=
  if d.amount = 0 then [] else [⟨dst, d.token, d.amount⟩]

/-- The part of `execute_propose` before its messages run,
packages/dao-pre-propose-base/src/execute.rs:131-158. `nextId` is what the proposal module answers. -/
def execPropose (s : Pre) (power : Addr → Nat) (sender : Addr) (funds : List (Nat × Nat)) (nextId : Nat) :
    Res (Pre × List (Addr × Token × Nat)) := do
  checkCanSubmit s.config.policy power sender
  match s.config.deposit with
  | some d => do
    checkPaid d funds
    .ok ({ s with deposits := s.deposits.set nextId (some d, sender) }, takeMsgs d sender)
  | none => .ok ({ s with deposits := s.deposits.set nextId (none, sender) }, [])

/-- `execute_update_config`, packages/dao-pre-propose-base/src/execute.rs:195-232. -/
def execUpdateConfig (s : Pre) (sender : Addr) (dep : Option Deposit) (pol : Option Policy) : Res Pre := do
  require (decide (sender = s.dao)) .unauthorized
  checkDeposit dep
  match pol with
  | some p => do
    p.validate
    .ok { s with config := ⟨dep, p⟩ }
  | none => .ok { s with config := ⟨dep, s.config.policy⟩ }

/-- Insertion into a sorted list. -/
def insertSorted (a : Addr) : List Addr → List Addr
  | [] => [a]
  | b :: l => if a ≤ b then a :: b :: l else b :: insertSorted a l

/-- `Vec::sort` of the standard library. -/
def sortAddrs : List Addr → List Addr
  | [] => []
  | a :: l => insertSorted a (sortAddrs l)

/-- `Vec::dedup` of the standard library: of consecutive equal elements only one stays. -/
def dedupAdjacent : List Addr → List Addr
  | [] => []
  | [a] => [a]
  | a :: b :: l => if a = b then dedupAdjacent (b :: l) else a :: dedupAdjacent (b :: l)

/-- `add_and_remove_addresses`, packages/dao-pre-propose-base/src/helpers.rs:5-32. Additions are appended and the
list is sorted and stripped of repetitions. -/
def addRemove (l : List Addr) (add remove : Option (List Addr)) : List Addr :=
  let l1 := match add with
    | some a => dedupAdjacent (sortAddrs (l ++ a))
    | none => l
  match remove with
  | some r => l1.filter (fun a => !r.contains a)
  | none => l1

/-- `execute_update_submission_policy`, packages/dao-pre-propose-base/src/execute.rs:235-311. -/
def execUpdatePolicy (s : Pre) (sender : Addr) (denyAdd denyRemove : Option (List Addr))
    (setMembers : Option Bool) (allowAdd allowRemove : Option (List Addr)) : Res Pre := do
  require (decide (sender = s.dao)) .unauthorized
  match s.config.policy with
  | .anyone deny => do
    require (setMembers.isNone && allowAdd.isNone && allowRemove.isNone) .invalid
    let p := Policy.anyone (addRemove deny denyAdd denyRemove)
    p.validate
    .ok { s with config := ⟨s.config.deposit, p⟩ }
  | .specific members allow deny => do
    let p := Policy.specific (setMembers.getD members) (addRemove allow allowAdd allowRemove)
      (addRemove deny denyAdd denyRemove)
    p.validate
    .ok { s with config := ⟨s.config.deposit, p⟩ }

/-- The token `execute_withdraw` pays out, packages/dao-pre-propose-base/src/execute.rs:319-326. -/
def withdrawToken (s : Pre) (t : Option Token) : Option Token :=
  match t with
  | some t => some t
  | none => s.config.deposit.map (·.token)

/-- `execute_withdraw`, packages/dao-pre-propose-base/src/execute.rs:313-348. `balance` is what the contract has of
a token. -/
def execWithdraw (s : Pre) (sender : Addr) (balance : Token → Nat) (t : Option Token) : Res (List Pay) := do
  require (decide (sender = s.dao)) .unauthorized
  let t ← orErr (withdrawToken s t) .invalid
  require (decide (balance t ≠ 0)) .invalid
  .ok [⟨s.dao, t, balance t⟩]

/-- `execute_add_proposal_submitted_hook`, packages/dao-pre-propose-base/src/execute.rs:350-365. -/
def execAddHook (s : Pre) (sender a : Addr) : Res Pre := do
  require (decide (sender = s.dao)) .unauthorized
  let h ← addHook s.hooks a
  .ok { s with hooks := h }

/-- `execute_remove_proposal_submitted_hook`, packages/dao-pre-propose-base/src/execute.rs:367-386. -/
def execRemoveHook (s : Pre) (sender a : Addr) : Res Pre := do
  require (decide (sender = s.dao)) .unauthorized
  let h ← removeHook s.hooks a
  .ok { s with hooks := h }

/-- Who gets the deposit, packages/dao-pre-propose-base/src/execute.rs:414-428. -/
def refundToProposer (st : Status) (r : Refund) : Bool :=
  match st, r with
  | .executed, .onlyPassed => true
  | _, .onlyPassed => false
  | _, .always => true
  | _, .never => false

/-- `execute_proposal_completed_hook`, packages/dao-pre-propose-base/src/execute.rs:388-455. The record of the deposit
is kept. -/
def execCompleted (s : Pre) (sender : Addr) (id : Nat) (st : Status) : Res (List Pay) := do
  require (decide (sender = s.module)) .unauthorized
  require (decide (st = .closed ∨ st = .executed ∨ st = .vetoed)) .invalid
  match s.deposits.get id with
  | some (some d, proposer) =>
    .ok (returnMsgs d (if refundToProposer st d.refund then proposer else s.dao))
  | some (none, _) => .ok []
  | none => .ok []

/-- The messages of the contract other than `Propose` and `ProposalCompletedHook`,
packages/dao-pre-propose-base/src/msg.rs:30-103. -/
inductive Msg where
  | updateConfig (dep : Option Deposit) (pol : Option Policy)
  | updatePolicy (denyAdd denyRemove : Option (List Addr)) (setMembers : Option Bool)
      (allowAdd allowRemove : Option (List Addr))
  | withdraw (t : Option Token)
  | addHook (a : Addr)
  | removeHook (a : Addr)
  | extension
  deriving DecidableEq, Repr

/-- `execute`, packages/dao-pre-propose-base/src/execute.rs:88-132, for these messages. -/
def exec (s : Pre) (sender : Addr) (balance : Token → Nat) : Msg → Res (Pre × List Pay)
  | .updateConfig dep pol => do let s' ← execUpdateConfig s sender dep pol; .ok (s', [])
  | .updatePolicy da dr m aa ar => do let s' ← execUpdatePolicy s sender da dr m aa ar; .ok (s', [])
  | .withdraw t => do let ps ← execWithdraw s sender balance t; .ok (s, ps)
  | .addHook a => do let s' ← execAddHook s sender a; .ok (s', [])
  | .removeHook a => do let s' ← execRemoveHook s sender a; .ok (s', [])
  | .extension => .ok (s, [])

/-! ## The proposal module -/

/-- What a call of the proposal module does outside of it: the proposal it creates, and the completion hooks it
sends as (pre-propose module, proposal, status). -/
structure ModOut where
  newId : Option Nat
  completed : List (Addr × Nat × Status)
  deriving DecidableEq, Repr

/-- A proposal module as its pre-propose module sees it. -/
structure PropModule where
  St : Type
  Env : Type
  Call : Type
  /-- The contents of a proposal. -/
  Payload : Type
  init : Block → St → Prop
  block : Env → Block
  sender : Env → Addr
  /-- The same transaction, with the module called by someone else. -/
  calledBy : Env → Addr → Env
  step : St → Env → Call → Res (St × ModOut)
  /-- `Propose` with a proposer and contents. -/
  propose : Addr → Payload → Call
  /-- Not the reply to a failed completion hook, which only a failed hook causes. -/
  outside : Call → Bool
  /-- The reply to a failed completion hook. -/
  hookFailed : St → Res St
  count : St → Nat
  policy : St → CreationPolicy
  statusOf : St → Nat → Option Status

/-! ## Both contracts and the tokens -/

/-- The pre-propose module (at address `here`), its proposal module and all token balances. `queue`: completion hooks
that were sent and have not run. `takes`: deposits to be taken by messages that have not run. -/
structure World (M : PropModule) where
  here : Addr
  pre : Pre
  mod : M.St
  bal : Balances
  queue : List (Nat × Status)
  takes : List (Addr × Token × Nat)

/-- What a transaction sees: the proposal module's view (with the sender and block), coins attached, and the voting
power the DAO reports now. -/
structure Env (M : PropModule) where
  mod : M.Env
  funds : List (Nat × Nat)
  power : Addr → Nat

/-- Steps. `deliver` and `take` run a message that waits. `transfer` moves tokens outside of these contracts. -/
inductive Call (M : PropModule) where
  | propose (p : M.Payload)
  | pre (m : Msg)
  | completed (id : Nat) (st : Status)
  | module (c : M.Call)
  | deliver (i : Nat)
  | take (i : Nat)
  | transfer (src dst : Addr) (t : Token) (n : Nat)

/-- What a step does: the proposal created, payments of the pre-propose module, whether a completion hook failed. -/
structure Out where
  newId : Option Nat := none
  pays : List Pay := []
  failed : Bool := false
  deriving DecidableEq, Repr

variable {M : PropModule}

/-- The balances of the pre-propose module. -/
def World.holds (w : World M) (t : Token) : Nat := getD0 w.bal (t, w.here)

/-- The completion hooks for this pre-propose module. -/
def hooksFor (here : Addr) (l : List (Addr × Nat × Status)) : List (Nat × Status) :=
  l.filterMap (fun x => if x.1 = here then some x.2 else none)

/-- `execute_propose` with its first message, packages/dao-pre-propose-base/src/execute.rs:131-187. The messages to
the consumers of submitted hooks can call anything, which other steps cover. -/
def stepPropose (w : World M) (e : Env M) (p : M.Payload) : Res (World M × Out) := do
  let a := M.sender e.mod
  require (decide (a ≠ w.here)) .invalid
  let bal ← pullCoins w.here a e.funds w.bal
  let (pre, takes) ← execPropose w.pre e.power a e.funds (M.count w.mod + 1)
  let (mod, o) ← M.step w.mod (M.calledBy e.mod w.here) (M.propose a p)
  .ok ({ w with pre := pre, mod := mod, bal := bal, queue := w.queue ++ hooksFor w.here o.completed
                takes := w.takes ++ takes },
       { newId := o.newId })

/-- Any other message to the pre-propose module. -/
def stepPre (w : World M) (e : Env M) (m : Msg) : Res (World M × Out) := do
  let a := M.sender e.mod
  require (decide (a ≠ w.here)) .invalid
  let bal ← pullCoins w.here a e.funds w.bal
  let (pre, pays) ← exec w.pre a (fun t => getD0 bal (t, w.here)) m
  let bal ← payAll w.here pays bal
  .ok ({ w with pre := pre, bal := bal }, { pays := pays })

/-- `ProposalCompletedHook` sent by anybody but the proposal module, which only sends it as a completion hook. -/
def stepCompleted (w : World M) (e : Env M) (id : Nat) (st : Status) : Res (World M × Out) := do
  let a := M.sender e.mod
  require (decide (a ≠ w.here ∧ a ≠ w.pre.module)) .invalid
  let pays ← execCompleted w.pre a id st
  let bal ← payAll w.here pays w.bal
  .ok ({ w with bal := bal }, { pays := pays })

/-- A call of the proposal module by anybody but the pre-propose module, which only calls it to propose. -/
def stepModule (w : World M) (e : Env M) (c : M.Call) : Res (World M × Out) := do
  require (decide (M.sender e.mod ≠ w.here)) .invalid
  require (M.outside c) .invalid
  let (mod, o) ← M.step w.mod e.mod c
  .ok ({ w with mod := mod, queue := w.queue ++ hooksFor w.here o.completed }, { newId := o.newId })

/-- What the completion hook does to the balances. -/
def runHook (w : World M) (id : Nat) (st : Status) : Res (List Pay × Balances) := do
  let pays ← execCompleted w.pre w.pre.module id st
  let bal ← payAll w.here pays w.bal
  .ok (pays, bal)

/-- A completion hook runs. It replies on error (packages/dao-hooks/src/proposal.rs:117-126): when it or a payment of
it fails, its effects are undone and the proposal module drops the pre-propose module. -/
def stepDeliver (w : World M) (i : Nat) : Res (World M × Out) :=
  match w.queue[i]? with
  | none => .error .notFound
  | some (id, st) =>
    match runHook w id st with
    | .ok (pays, bal) => .ok ({ w with bal := bal, queue := w.queue.eraseIdx i }, { pays := pays })
    | .error _ => do
      let mod ← M.hookFailed w.mod
      .ok ({ w with mod := mod, queue := w.queue.eraseIdx i }, { failed := true })

/-- A `TransferFrom` that takes a deposit runs. Allowances are not modelled: a missing one makes the transaction fail. -/
def stepTake (w : World M) (i : Nat) : Res (World M × Out) :=
  match w.takes[i]? with
  | none => .error .notFound
  | some (payer, t, n) => do
    let bal ← w.bal.move (t, payer) (t, w.here) n
    .ok ({ w with bal := bal, takes := w.takes.eraseIdx i }, {})

/-- Tokens moved by others. -/
def stepTransfer (w : World M) (src dst : Addr) (t : Token) (n : Nat) : Res (World M × Out) := do
  require (decide (src ≠ w.here)) .invalid
  let bal ← w.bal.move (t, src) (t, dst) n
  .ok ({ w with bal := bal }, {})

/-- A step of the two contracts. -/
def step (w : World M) (e : Env M) : Call M → Res (World M × Out)
  | .propose p => stepPropose w e p
  | .pre m => stepPre w e m
  | .completed id st => stepCompleted w e id st
  | .module c => stepModule w e c
  | .deliver i => stepDeliver w i
  | .take i => stepTake w i
  | .transfer src dst t n => stepTransfer w src dst t n

/-- The pre-propose module is instantiated by its proposal module at an address that is not in use: not the DAO's nor
the module's. The proposal module may have a history. -/
def Init (M : PropModule) (reach : Block → M.St → Prop) (b : Block) (w : World M) : Prop :=
  reach b w.mod ∧ w.queue = [] ∧ w.takes = [] ∧ w.pre.dao ≠ w.here ∧ w.pre.module ≠ w.here ∧
    ∃ c, instantiate w.pre.module w.pre.dao c = .ok w.pre

/-- States a proposal module can be in. -/
inductive PropModule.Reachable (M : PropModule) : Block → M.St → Prop where
  | init {b : Block} {s : M.St} (h : M.init b s) : Reachable M b s
  | step {b : Block} {s s' : M.St} {e : M.Env} {c : M.Call} {o : ModOut} (hr : Reachable M b s)
      (hb : b.le (M.block e)) (h : M.step s e c = .ok (s', o)) : Reachable M (M.block e) s'

/-- Histories of a pre-propose module and its proposal module. -/
def sys (M : PropModule) : Sys (World M) (Env M) (Call M) Out where
  init := Init M M.Reachable
  block e := M.block e.mod
  step := step

end Verif.PrePropose
