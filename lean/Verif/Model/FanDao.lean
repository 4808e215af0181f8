import Verif.Model.TokenStaked
import Verif.Model.FanToken
/-!
# A DAO with a fan token

dao-voting-token-staked created with `TokenInfo::Factory` (contracts/voting/dao-voting-token-staked/src/contract.rs:135-157
and 737-797), where the message for the factory is `Issue` of btsg-ft-factory
(contracts/external/btsg-ft-factory/src/contract.rs:46-174), together with that factory, the chain's module x/fantoken as
`Verif.Model.FanToken` describes it, and the bank. The factory names no token contract and has no messages for the DAO
(btsg-ft-factory/src/contract.rs:158-162), so the reply at dao-voting-token-staked/src/contract.rs:737-797 stores the
denomination, checks the supply and does nothing else. The fee of the chain for issuing a token, and funds sent along with
the message to the factory, are not modelled.
-/

namespace Verif.FanDao
open Verif

/-- The part of the balances that are in one denomination. -/
def ledgerOf (d : Nat) (bal : Ledger (Nat × Addr)) : Ledger Addr :=
  (bal.filter (fun x => x.1.1 = d)).map (fun x => (x.1.2, x.2))

/-- The bank's `query_supply`. -/
def supply (bal : Ledger (Nat × Addr)) (d : Nat) : Nat := Verif.total (ledgerOf d bal)

/-- The factory with its chain, the voting module, its denomination and its address. -/
structure World where
  chain : FanToken.World
  vm : TokenStaked.State
  denom : Nat
  self : Addr
  deriving DecidableEq, Repr

/-- `instantiate` of the voting module with a factory, contracts/voting/dao-voting-token-staked/src/contract.rs:62-96 and
135-157, the submessage to btsg-ft-factory, contracts/external/btsg-ft-factory/src/contract.rs:46-174, and the reply,
contracts/voting/dao-voting-token-staked/src/contract.rs:737-797. The factory asks the voting module for its DAO, which
the module has stored by then. `denom` is the name that the chain makes up. -/
def create (w : FanToken.World) (b : Block) (dao self : Addr) (d : Option Duration)
    (th : Option Active.ActiveThreshold) (denom : Nat) (t : FanToken.NewToken) : Res World := do
  let vm ← TokenStaked.instantiate dao d th
  let (w', _) ← FanToken.step w { block := b, sender := self, dao := some vm.dao, denom := denom } (.factory t)
  TokenStaked.replyFactory vm (supply w'.bal denom) (getD0 w'.bal (denom, vm.dao))
  .ok { chain := w', vm := vm, denom := denom, self := self }

/-- What can happen: anything on the chain and at the factory; a call of the voting module; a stake with its funds. -/
inductive Call where
  | fan (c : FanToken.Call)
  | vm (m : TokenStaked.Msg)
  | stake (amount : Nat)
  deriving DecidableEq, Repr

/-- The bank transfer of the voting module, if any. -/
def settle (w : World) (vm : TokenStaked.State) (out : TokenStaked.Out) : Res (World × TokenStaked.Out) :=
  match out.pay with
  | none => .ok ({ w with vm := vm }, out)
  | some (a, n) => do
    let bal ← w.chain.bal.move (w.denom, w.self) (w.denom, a) n
    .ok ({ w with vm := vm, chain := { w.chain with bal := bal } }, out)

/-- One transaction of anybody but the voting module, which after its creation only makes the transfers above. The coins
of a stake call are in the module's account before it runs. -/
def step (w : World) (e : FanToken.Env) : Call → Res (World × TokenStaked.Out)
  | .fan c => do
    require (decide (e.sender ≠ w.self)) .unauthorized
    let (chain, _) ← FanToken.step w.chain e c
    .ok ({ w with chain := chain }, {})
  | .vm m => do
    require (decide (e.sender ≠ w.self)) .unauthorized
    let (vm, out) ← TokenStaked.exec w.vm e.block (supply w.chain.bal w.denom) e.sender m
    settle w vm out
  | .stake n => do
    require (decide (e.sender ≠ w.self)) .unauthorized
    let bal ← w.chain.bal.move (w.denom, e.sender) (w.denom, w.self) n
    let (vm, out) ← TokenStaked.execStake w.vm e.block e.sender n
    .ok ({ w with vm := vm, chain := { w.chain with bal := bal } }, out)

/-- The module was created at some point of a history of the factory, with a largest supply that fits a `Uint128`. DAO,
module and factory have different addresses. -/
def Init (b : Block) (w : World) : Prop :=
  ∃ c b' log dao self d th denom t, FanToken.sys.Reach c b' log ∧ dao ≠ self ∧ dao ≠ c.self ∧ self ≠ c.self ∧
    t.max < U128 ∧ create c b dao self d th denom t = .ok w

/-- Histories of the module, the factory and the chain. -/
def sys : Sys World FanToken.Env Call TokenStaked.Out where
  init := Init
  block e := e.block
  step := step

/-- `query_is_active`, contracts/voting/dao-voting-token-staked/src/contract.rs:485-545. -/
def active (w : World) : Res Bool := TokenStaked.active w.vm (supply w.chain.bal w.denom)

end Verif.FanDao
