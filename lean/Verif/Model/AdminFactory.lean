import Verif.Base.Coins
import Verif.Base.History
/-!
# cw-admin-factory

The factory (contracts/external/cw-admin-factory) and what the chain does with its messages. The contract being
instantiated may call anything, the factory too, before the factory gets its reply; so the steps of a history are the
parts of transactions: the call that begins a creation, the reply that ends it, and what others do, possibly between the
two. The creations that have begun and not ended are on a stack.
-/

namespace Verif.AdminFactory

/-- How a contract is to be created: with `WasmMsg::Instantiate`, or with `WasmMsg::Instantiate2` and perhaps an address
that is expected. -/
inductive Kind where
  | plain
  | two (expect : Option Addr)
  deriving DecidableEq, Repr

/-- The storage, contracts/external/cw-admin-factory/src/state.rs:1-8. -/
structure State where
  admin : Option Addr
  expect : Option Addr
  deriving DecidableEq, Repr

/-- `instantiate`, contracts/external/cw-admin-factory/src/contract.rs:22-36. -/
def instantiate (admin : Option Addr) : State := { admin := admin, expect := none }

/-- The expectation that is saved, contracts/external/cw-admin-factory/src/contract.rs:109-112. -/
def saveExpect (s : State) : Kind → State
  | .two (some a) => { s with expect := some a }
  | _ => s

/-- `execute`, contracts/external/cw-admin-factory/src/contract.rs:39-59, with `instantiate_contract` (61-89) and
`instantiate2_contract` (92-128). The submessage it returns is carried out in `begin` below. -/
def exec (s : State) (sender : Addr) (k : Kind) : Res State := do
  require (match s.admin with | some a => decide (a = sender) | none => true) .unauthorized
  .ok (saveExpect s k)

/-- The check of the address, contracts/external/cw-admin-factory/src/contract.rs:147-159. All the factory knows of the
request is the id of the reply. -/
def checkExpect (s : State) (addr : Addr) : Kind → Res State
  | .plain => .ok s
  | .two _ =>
    match s.expect with
    | none => .ok s
    | some a => do
      require (decide (addr = a)) .invalid
      .ok { s with expect := none }

/-- `reply`, contracts/external/cw-admin-factory/src/contract.rs:140-173: the state afterwards and the admin the new
contract is to have. -/
def reply (s : State) (addr : Addr) (k : Kind) : Res (State × Addr) := do
  let s' ← checkExpect s addr k
  .ok (s', addr)

/-! ## The chain -/

/-- A creation that has begun: the address of the new contract and how it was asked for. -/
structure Frame where
  addr : Addr
  kind : Kind
  deriving DecidableEq, Repr

/-- The factory at address `self`, the creations under way (innermost first), the admins of the contracts there are, and
all balances. -/
structure World where
  c : State
  self : Addr
  stack : List Frame
  admins : AMap Addr (Option Addr)
  bal : Balances
  deriving DecidableEq, Repr

/-- What a step sees: block, sender and coins sent along. -/
structure Env where
  block : Block
  sender : Addr
  funds : List (Nat × Nat) := []
  deriving DecidableEq, Repr

/-- What can happen: a call of the factory, which begins a creation at the address `addr` the chain assigns; the reply
that ends the innermost creation; the admin of a contract naming another (`WasmMsg::UpdateAdmin`, `ClearAdmin`); somebody
sending tokens; another contract being created. -/
inductive Call where
  | begin (kind : Kind) (addr : Addr)
  | finish
  | setAdmin (contract : Addr) (new : Option Addr)
  | transfer (token : Token) (dst : Addr) (amount : Nat)
  | other (contract : Addr) (admin : Option Addr)
  deriving DecidableEq, Repr

/-- A call of the factory and the beginning of the submessage: the contract is created with the factory as its admin
(contracts/external/cw-admin-factory/src/contract.rs:77-83) and the coins passed on to it. The chain gives the address to
no two contracts. -/
def begin (w : World) (e : Env) (k : Kind) (addr : Addr) : Res World := do
  require (decide (e.sender ≠ w.self)) .invalid
  let bal ← pullCoins w.self e.sender e.funds w.bal
  let c ← exec w.c e.sender k
  require (decide (w.admins.get addr = none) && decide (addr ≠ w.self)) .invalid
  let bal' ← pullCoins addr w.self e.funds bal
  .ok { w with c := c, bal := bal', admins := w.admins.set addr (some w.self), stack := ⟨addr, k⟩ :: w.stack }

/-- `WasmMsg::UpdateAdmin`: only the admin of a contract changes its admin. -/
def updateAdmin (w : World) (sender contract : Addr) (new : Option Addr) : Res World := do
  let a ← orErr (w.admins.get contract) .notFound
  require (decide (a = some sender)) .unauthorized
  .ok { w with admins := w.admins.set contract new }

/-- The reply for the innermost creation and the message the factory then sends. -/
def finish (w : World) : Res (World × Option Addr) :=
  match w.stack with
  | [] => .error .invalid
  | f :: rest => do
    let r ← reply w.c f.addr f.kind
    let w' ← updateAdmin { w with c := r.1, stack := rest } w.self f.addr (some r.2)
    .ok (w', some f.addr)

/-- One step. It returns the address of the contract whose creation ended. -/
def step (w : World) (e : Env) : Call → Res (World × Option Addr)
  | .begin k addr => do
    let w' ← begin w e k addr
    .ok (w', none)
  | .finish => finish w
  | .setAdmin c new => do
    require (decide (e.sender ≠ w.self)) .invalid
    let w' ← updateAdmin w e.sender c new
    .ok (w', none)
  | .transfer t dst n => do
    require (decide (e.sender ≠ w.self)) .invalid
    let bal ← w.bal.move (t, e.sender) (t, dst) n
    .ok ({ w with bal := bal }, none)
  | .other c a => do
    require (decide (w.admins.get c = none)) .invalid
    .ok ({ w with admins := w.admins.set c a }, none)

/-- Histories of one factory. -/
def sys : Sys World Env Call (Option Addr) where
  init _ w := (∃ a, w.c = instantiate a) ∧ w.stack = [] ∧ w.admins = []
  block e := e.block
  step := step

end Verif.AdminFactory
