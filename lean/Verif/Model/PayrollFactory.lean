import Verif.Model.Vesting
import Verif.Base.Coins
import Verif.Base.History
import Verif.Model.Paginate
/-!
# cw-payroll-factory

The factory (contracts/external/cw-payroll-factory) together with what it calls: the bank, cw20 tokens, and the
vesting contracts it creates, which are those of `Verif.Vesting` at the moment they are created.
-/

namespace Verif.PayrollFactory

/-! ## The vesting contract as the factory sees it -/

/-- `InstantiateMsg` of cw-vesting, contracts/external/cw-vesting/src/msg.rs:11-61, with the token named as the message
names it. Title and description have no effect and are left out. -/
structure VestMsg where
  owner : Option Addr
  recipient : Addr
  total : Nat
  token : Token
  schedule : Vesting.Schedule
  start : Option Nat
  duration : Nat
  ubs : Nat
  deriving DecidableEq, Repr

/-- `UncheckedDenom::into_checked`, packages/cw-denom/src/lib.rs:65-77, as `Verif.Vesting` sees the result: `bond` is the
denomination the chain stakes. -/
def denomOf (bond : Nat) : Token → Vesting.Denom
  | .native d => .native (decide (d = bond))
  | .cw20 t => .cw20 t

/-- The message as `Verif.Vesting` takes it. -/
def VestMsg.inst (bond : Nat) (m : VestMsg) : Vesting.InstMsg where
  owner := m.owner
  recipient := m.recipient
  total := m.total
  denom := denomOf bond m.token
  schedule := m.schedule
  start := m.start
  duration := m.duration
  ubs := m.ubs

/-- `must_pay` of cw-utils: exactly one coin, of the denomination wanted. -/
def mustPay (funds : List (Nat × Nat)) (denom : Nat) : Res Nat :=
  match funds with
  | [(d, n)] => if d = denom ∧ n ≠ 0 then .ok n else .error .invalid
  | _ => .error .invalid

/-- What must come with the instantiation, contracts/external/cw-vesting/src/contract.rs:58-91. -/
def checkFunds (token : Token) (total : Nat) (funds : List (Nat × Nat)) : Res Unit :=
  match token with
  | .native d => do
    let sent ← mustPay funds d
    require (decide (total = sent)) .invalid
  | .cw20 _ => require funds.isEmpty .invalid

/-- `instantiate` of cw-vesting, contracts/external/cw-vesting/src/contract.rs:26-97. The message setting the address for
staking rewards has no effect on anything modelled here. -/
def vestInstantiate (bond : Nat) (b : Block) (m : VestMsg) (funds : List (Nat × Nat)) : Res Vesting.State := do
  let s ← Vesting.instantiate b (m.inst bond)
  checkFunds m.token s.vest.total funds
  .ok s

/-! ## The factory -/

/-- `VestingContract`, contracts/external/cw-payroll-factory/src/state.rs:9-14. -/
structure Entry where
  contract : Addr
  instantiator : Addr
  recipient : Addr
  deriving DecidableEq, Repr

/-- The storage, contracts/external/cw-payroll-factory/src/state.rs:5-42 and the ownership of cw-ownable. The indexes of
the map are not stored separately: a listing by index is a listing of the entries with the value. -/
structure State where
  owner : Ownership
  codeId : Nat
  tmp : Option Addr
  registry : AMap Addr Entry
  deriving DecidableEq, Repr

/-- `instantiate`, contracts/external/cw-payroll-factory/src/contract.rs:32-44. -/
def instantiate (owner : Option Addr) (codeId : Nat) : State :=
  { owner := { owner := owner }, codeId := codeId, tmp := none, registry := [] }

/-- `ExecuteMsg`, contracts/external/cw-payroll-factory/src/msg.rs:12-26. A `Cw20ReceiveMsg` carries the sender and the
amount, and whoever calls `Receive` chooses them; `ReceiveMsg` (30-36) has only one variant. -/
inductive Msg where
  | receive (sender : Addr) (amount : Nat) (msg : VestMsg)
  | native (msg : VestMsg)
  | updateOwnership (action : OwnerAction)
  | updateCodeId (id : Nat)
  deriving DecidableEq, Repr

/-- The submessage `WasmMsg::Instantiate`. -/
structure Create where
  admin : Option Addr
  codeId : Nat
  funds : List (Nat × Nat)
  msg : VestMsg
  deriving DecidableEq, Repr

/-- `instantiate_contract`, contracts/external/cw-payroll-factory/src/contract.rs:117-150. -/
def instantiateContract (s : State) (sender : Addr) (funds : List (Nat × Nat)) (m : VestMsg) : Res (State × Option Create) := do
  require (match s.owner.owner with | some o => decide (o = sender) | none => true) .unauthorized
  .ok (s, some { admin := m.owner, codeId := s.codeId, funds := funds, msg := m })

/-- `execute_receive_cw20`, contracts/external/cw-payroll-factory/src/contract.rs:66-99. -/
def receive (s : State) (funds : List (Nat × Nat)) (sender : Addr) (amount : Nat) (m : VestMsg) :
    Res (State × Option Create) := do
  require funds.isEmpty .invalid
  require (decide (s.tmp = none)) .invalid
  require (decide (amount = m.total)) .invalid
  instantiateContract { s with tmp := some sender } sender [] m

/-- `execute`, contracts/external/cw-payroll-factory/src/contract.rs:47-64, with
`execute_instantiate_native_payroll_contract` (101-111), `execute_update_owner` (152-160) and `execute_update_code_id`
(162-172). -/
def exec (s : State) (b : Block) (caller : Addr) (funds : List (Nat × Nat)) : Msg → Res (State × Option Create)
  | .receive sender amount m => receive s funds sender amount m
  | .native m => instantiateContract { s with tmp := some caller } caller funds m
  | .updateOwnership a => do
    let o ← s.owner.update b caller a
    .ok ({ s with owner := o }, none)
  | .updateCodeId id => do
    s.owner.assertOwner caller
    .ok ({ s with codeId := id }, none)

/-- The message that funds the new contract, contracts/external/cw-payroll-factory/src/contract.rs:326-340: the token
contract called and the amount sent on. -/
def fundMsg (v : Vesting.Vest) : Option (Addr × Nat) :=
  match v.denom with
  | .native _ => none
  | .cw20 t => some (t, v.total)

/-- `reply`, contracts/external/cw-payroll-factory/src/contract.rs:298-348. `v` is what the new contract answers to the
query for its vest. -/
def reply (s : State) (addr : Addr) (v : Vesting.Vest) : Res (State × Option (Addr × Nat)) := do
  let i ← orErr s.tmp .notFound
  .ok ({ s with tmp := none
                registry := s.registry.set addr { contract := addr, instantiator := i, recipient := v.recipient } },
    fundMsg v)

/-! ## Queries -/

/-- `ListVestingContracts` and `ListVestingContractsReverse`, contracts/external/cw-payroll-factory/src/contract.rs:177-203. -/
def listAll (s : State) (start limit : Option Nat) (o : Paginate.Order) : List (Addr × Entry) :=
  Paginate.listing s.registry start limit 10 (some 50) o

/-- `ListVestingContractsByInstantiator` and its reverse, contracts/external/cw-payroll-factory/src/contract.rs:204-247. -/
def listByInstantiator (s : State) (i : Addr) (start limit : Option Nat) (o : Paginate.Order) : List (Addr × Entry) :=
  Paginate.listing (s.registry.filter (fun p => decide (p.2.instantiator = i))) start limit 10 (some 50) o

/-- `ListVestingContractsByRecipient` and its reverse, contracts/external/cw-payroll-factory/src/contract.rs:248-291. -/
def listByRecipient (s : State) (r : Addr) (start limit : Option Nat) (o : Paginate.Order) : List (Addr × Entry) :=
  Paginate.listing (s.registry.filter (fun p => decide (p.2.recipient = r))) start limit 10 (some 50) o

/-! ## The chain -/

/-- A contract the factory created: its state when the creating transaction ended, what it vests and who may migrate it.
Its later life is that of `Verif.Vesting`. -/
structure Born where
  state : Vesting.State
  token : Token
  admin : Option Addr
  deriving DecidableEq, Repr

/-- The factory at address `self`, all balances and the contracts it created. `honest` are the cw20 contracts that move
tokens as cw20-base does and report transfers truthfully; any other address may call `Receive` with any content.
`vestCode` is the code of cw-vesting; instantiating any other code is not modelled. -/
structure World where
  c : State
  self : Addr
  bal : Balances
  vests : AMap Addr Born
  honest : List Addr
  bond : Nat
  vestCode : Nat
  deriving DecidableEq, Repr

/-- What a transaction sees: the block, who sent it with which coins, the address the chain gives to a contract that is
created, and whether a token that is not honest tells the contract that it was funded. -/
structure Env where
  block : Block
  sender : Addr
  funds : List (Nat × Nat) := []
  newAddr : Addr := 0
  notifies : Bool := false
  deriving DecidableEq, Repr

/-- What can happen: a message to the factory, tokens sent to it with `Cw20ExecuteMsg::Send` (or `SendFrom` out of the
account `payer`), and transfers between others or to the factory. -/
inductive Call where
  | msg (m : Msg)
  | cw20Send (token payer : Addr) (amount : Nat) (m : VestMsg)
  | transfer (token : Token) (dst : Addr) (amount : Nat)
  deriving DecidableEq, Repr

/-- The token contract named can be asked for its supply, packages/cw-denom/src/lib.rs:68-75: neither the factory nor the
contract being created can. -/
def tokenAnswers (w : World) (newAddr : Addr) : Token → Bool
  | .native _ => true
  | .cw20 t => decide (t ≠ w.self) && decide (t ≠ newAddr)

/-- The new contract gets an address of its own. -/
def freshAddr (w : World) (newAddr : Addr) : Bool :=
  decide (newAddr ≠ w.self) && decide (w.vests.get newAddr = none) && decide (newAddr ∉ w.honest)

/-- The message that funds the new contract is carried out: an honest token moves the amount and calls the contract. -/
def forward (self : Addr) (honest : List Addr) (e : Env) (bal : Balances) (v : Vesting.State) :
    Option (Addr × Nat) → Res (Balances × Vesting.State)
  | none => .ok (bal, v)
  | some (t, n) =>
    if t ∈ honest then do
      let bal' ← bal.move (.cw20 t, self) (.cw20 t, e.newAddr) n
      let r ← Vesting.receive v { block := e.block, sender := t } n
      .ok (bal', r.1)
    else if e.notifies then do
      let r ← Vesting.receive v { block := e.block, sender := t } n
      .ok (bal, r.1)
    else .ok (bal, v)

/-- The submessage, the reply and the message after it. cw-vesting calls nobody while it is instantiated, so nothing comes
between. -/
def create (w : World) (e : Env) (r : Create) : Res World := do
  require (decide (r.codeId = w.vestCode)) .invalid
  require (freshAddr w e.newAddr) .invalid
  require (tokenAnswers w e.newAddr r.msg.token) .invalid
  let bal ← pullCoins e.newAddr w.self r.funds w.bal
  let v ← vestInstantiate w.bond e.block r.msg r.funds
  let x ← reply w.c e.newAddr v.vest
  let y ← forward w.self w.honest e bal v x.2
  .ok { w with c := x.1, bal := y.1
               vests := w.vests.set e.newAddr { state := y.2, token := r.msg.token, admin := r.admin } }

/-- The contract created, if any. -/
def finish (w : World) (e : Env) : Option Create → Res (World × Option Addr)
  | none => .ok (w, none)
  | some r => do
    let w' ← create w e r
    .ok (w', some e.newAddr)

/-- A call of the factory with its consequences. -/
def run (w : World) (e : Env) (caller : Addr) (funds : List (Nat × Nat)) (m : Msg) : Res (World × Option Addr) := do
  let r ← exec w.c e.block caller funds m
  finish { w with c := r.1 } e r.2

/-- One transaction. Amounts are 128-bit numbers (`Uint128`). -/
def step (w : World) (e : Env) : Call → Res (World × Option Addr)
  | .msg m => do
    require (decide (e.sender ≠ w.self) && decide (e.sender ∉ w.honest) && decide (e.newAddr ≠ e.sender)) .invalid
    let bal ← pullCoins w.self e.sender e.funds w.bal
    run { w with bal := bal } e e.sender e.funds m
  | .cw20Send t payer n m => do
    require (decide (t ∈ w.honest) && decide (payer ≠ w.self) && decide (e.newAddr ≠ payer)) .invalid
    let bal ← w.bal.move (.cw20 t, payer) (.cw20 t, w.self) n
    run { w with bal := bal } e t [] (.receive e.sender n m)
  | .transfer t dst n => do
    require (decide (e.sender ≠ w.self)) .invalid
    let bal ← w.bal.move (t, e.sender) (t, dst) n
    .ok ({ w with bal := bal }, none)

/-- Histories of one factory. Balances are arbitrary 128-bit numbers when it is created. -/
def sys : Sys World Env Call (Option Addr) where
  init _ w := (∃ owner id, w.c = instantiate owner id) ∧ w.vests = [] ∧ w.self ∉ w.honest ∧
    ∀ k, getD0 w.bal k < U128
  block e := e.block
  step := step

end Verif.PayrollFactory
