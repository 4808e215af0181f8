import Verif.Base.Ledger
import Verif.Base.History
/-!
# btsg-ft-factory

The factory (contracts/external/btsg-ft-factory) and the module x/fantoken of the chain it runs on, which keeps for each
denomination an authority, a minter, a largest supply and the supply. What is assumed of the module is written here. The
fee it charges for issuing is not modelled. The module calls no contract, so nothing comes between the factory's call and
its reply.
-/

namespace Verif.FanToken

/-- `NewFanToken`, contracts/external/btsg-ft-factory/src/msg.rs:22-36. Symbol, name and URI have no effect and are left
out. -/
structure NewToken where
  max : Nat
  initial : List (Addr × Nat)
  daoBalance : Option Nat
  deriving DecidableEq, Repr

/-- `CREATING_FAN_TOKEN`, contracts/external/btsg-ft-factory/src/state.rs:5-7. -/
structure State where
  creating : Option (NewToken × Addr)
  deriving DecidableEq, Repr

/-! ## The module -/

/-- A token of the module. -/
structure Token where
  authority : Addr
  minter : Addr
  max : Nat
  supply : Nat
  deriving DecidableEq, Repr

/-- The factory at address `self`, the tokens of the module and all balances, by denomination and holder. -/
structure World where
  c : State
  self : Addr
  tokens : AMap Nat Token
  bal : Ledger (Nat × Addr)
  deriving DecidableEq, Repr

/-- The messages to the module that the factory sends when a token has been issued. -/
inductive ModMsg where
  | mint (recipient : Addr) (amount : Nat)
  | setAuthority (new : Addr)
  | setMinter (new : Addr)
  deriving DecidableEq, Repr

/-- `MsgIssue`: a new denomination, of which there is nothing yet. -/
def issue (w : World) (denom : Nat) (authority minter : Addr) (max : Nat) : Res World := do
  require (decide (w.tokens.get denom = none)) .invalid
  .ok { w with tokens := w.tokens.set denom { authority := authority, minter := minter, max := max, supply := 0 } }

/-- `MsgMint`, `MsgSetAuthority` and `MsgSetMinter`, sent by `sender`. A coin of amount zero is refused. -/
def modMsg (w : World) (denom : Nat) (sender : Addr) : ModMsg → Res World
  | .mint r n => do
    let t ← orErr (w.tokens.get denom) .notFound
    require (decide (t.minter = sender)) .unauthorized
    require (decide (n ≠ 0)) .invalid
    require (decide (t.supply + n ≤ t.max)) .invalid
    let bal ← w.bal.credit (denom, r) n
    .ok { w with bal := bal, tokens := w.tokens.set denom { t with supply := t.supply + n } }
  | .setAuthority a => do
    let t ← orErr (w.tokens.get denom) .notFound
    require (decide (t.authority = sender)) .unauthorized
    .ok { w with tokens := w.tokens.set denom { t with authority := a } }
  | .setMinter a => do
    let t ← orErr (w.tokens.get denom) .notFound
    require (decide (t.minter = sender)) .unauthorized
    .ok { w with tokens := w.tokens.set denom { t with minter := a } }

/-- Messages one after another. -/
def modMsgs (denom : Nat) (sender : Addr) : List ModMsg → World → Res World
  | [], w => .ok w
  | m :: rest, w => do
    let w' ← modMsg w denom sender m
    modMsgs denom sender rest w'

/-! ## The factory -/

/-- `execute_issue`, contracts/external/btsg-ft-factory/src/contract.rs:46-85, up to the submessage: `dao` is what the
sender answers when asked for its DAO. The submessage names the factory as authority and as minter. -/
def execIssue (_s : State) (dao : Option Addr) (t : NewToken) : Res State := do
  let d ← orErr dao .notFound
  .ok { creating := some (t, d) }

/-- The balance for the DAO, contracts/external/btsg-ft-factory/src/contract.rs:122-137. -/
def mintDao (dao : Addr) : Option Nat → List ModMsg
  | none => []
  | some n => if n = 0 then [] else [.mint dao n]

/-- `reply`, contracts/external/btsg-ft-factory/src/contract.rs:93-174. -/
def reply (s : State) : Res (State × List ModMsg) := do
  let p ← orErr s.creating .notFound
  .ok ({ creating := none },
    p.1.initial.map (fun b => .mint b.1 b.2) ++ mintDao p.2 p.1.daoBalance ++ [.setAuthority p.2, .setMinter p.2])

/-! ## The chain -/

/-- What a transaction sees: the block, the sender, what the sender answers to the query for its DAO, and the
denomination the module makes up for a new token. -/
structure Env where
  block : Block
  sender : Addr
  dao : Option Addr := none
  denom : Nat := 0
  deriving DecidableEq, Repr

/-- What can happen: a call of the factory; somebody issuing a token directly; a message to the module; a transfer;
somebody burning tokens. -/
inductive Call where
  | factory (t : NewToken)
  | issue (authority minter : Addr) (max : Nat)
  | module (m : ModMsg)
  | transfer (dst : Addr) (amount : Nat)
  | burn (amount : Nat)
  deriving DecidableEq, Repr

/-- One transaction. -/
def step (w : World) (e : Env) : Call → Res (World × Unit)
  | .factory t => do
    let c ← execIssue w.c e.dao t
    let w1 ← issue { w with c := c } e.denom w.self w.self t.max
    let r ← reply w1.c
    let w2 ← modMsgs e.denom w.self r.2 { w1 with c := r.1 }
    .ok (w2, ())
  | .issue a m max => do
    let w' ← issue w e.denom a m max
    .ok (w', ())
  | .module m => do
    require (decide (e.sender ≠ w.self)) .invalid
    let w' ← modMsg w e.denom e.sender m
    .ok (w', ())
  | .transfer dst n => do
    let bal ← w.bal.move (e.denom, e.sender) (e.denom, dst) n
    .ok ({ w with bal := bal }, ())
  | .burn n => do
    let t ← orErr (w.tokens.get e.denom) .notFound
    let bal ← w.bal.debit (e.denom, e.sender) n
    .ok ({ w with bal := bal, tokens := w.tokens.set e.denom { t with supply := t.supply - n } }, ())

/-- Histories of one factory, on a chain where no token has been issued yet. -/
def sys : Sys World Env Call Unit where
  init _ w := w.c = { creating := none } ∧ w.tokens = [] ∧ w.bal = []
  block e := e.block
  step := step

end Verif.FanToken
