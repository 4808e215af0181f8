import Verif.Model.Issuer
import Verif.Model.TokenStaked
/-!
# dao-voting-token-staked with a token of its own

The voting module is created together with a new token of the chain's token factory, through a new
cw-tokenfactory-issuer. Here are that creation, step by step, and then the module, the issuer and the chain side by side:
the coins that are staked are coins the issuer can mint, burn, move and freeze. The voting module alone is
`Verif.Model.TokenStaked`, the issuer alone `Verif.Model.Issuer`.

Simplifications: the fee for a new denomination is not modelled, nor is metadata, which nothing reads. The supply of the
token fits a `Uint128`, as in `Verif.Model.TokenStaked`. Bank transfers call no contract but the listener of the
denomination, and a new one has none, so nothing comes between the messages of the creation.
-/

namespace Verif.TokenDao
open Verif

/-- `query_supply` of the bank. -/
def supply (c : Issuer.Chain) (d : Nat) : Nat := AMap.sum (fun k v => if k.1 = d then v else 0) c.bal

/-- The issuer with the chain, the voting module, its denomination and its address. -/
structure World where
  iss : Issuer.World
  vm : TokenStaked.State
  denom : Nat
  self : Addr
  deriving DecidableEq, Repr

/-! ## Creation -/

/-- `NewTokenInfo`, packages/dao-interface/src/token.rs:31-45, without code id and metadata. -/
structure NewToken where
  subdenom : Nat
  balances : List (Addr × Nat)
  daoBalance : Option Nat
  deriving DecidableEq, Repr

/-- `MsgCreateDenom` of the token factory: the denomination, named after its creator, must be new; the creator becomes
its administrator. `name`: how the chain names denominations, `factory/{creator}/{subdenom}`. -/
def createDenom (name : Addr → Nat → Nat) (c : Issuer.Chain) (creator : Addr) (sub : Nat) : Res Issuer.Chain := do
  let d := name creator sub
  require (decide (c.admin.get d = none ∧ c.hook.get d = none ∧ supply c d = 0)) .invalid
  .ok { c with admin := c.admin.set d creator }

/-- `instantiate` of the issuer for a new token, contracts/external/cw-tokenfactory-issuer/src/contract.rs:25-69, with its
reply (176-189), which stores the denomination the chain answers. -/
def newIssuer (name : Addr → Nat → Nat) (c : Issuer.Chain) (creator here : Addr) (sub : Nat) : Res Issuer.World := do
  let c ← createDenom name c here sub
  .ok { here := here, st := Issuer.instantiate creator (name here sub), chain := c }

/-- The messages of `reply` to the issuer, contracts/voting/dao-voting-token-staked/src/contract.rs:594-713: an allowance
for the initial supply, the initial balances, the DAO's balance, the first half of the transfer of ownership. -/
def setupMsgs (vm : TokenStaked.State) (self : Addr) (t : NewToken) : Res (List Issuer.Msg) := do
  let mints ← TokenStaked.replyNew vm t.balances t.daoBalance
  let initial ← TokenStaked.sumAmounts t.balances 0
  let total ← add128 initial (t.daoBalance.getD 0)
  .ok (.setMinter self total :: mints.map (fun x => .mint x.1 x.2) ++ [.updateOwnership (.transfer vm.dao none)])

/-- The voting module sends messages to the issuer, one after the other. -/
def sendAll (self : Addr) (b : Block) : List Issuer.Msg → Issuer.World → Res Issuer.World
  | [], w => .ok w
  | m :: l, w => do
    let (w1, _) ← Issuer.step w { block := b, sender := self } (.exec m)
    sendAll self b l w1

/-- `instantiate` with a new token, contracts/voting/dao-voting-token-staked/src/contract.rs:62-131, with its reply
(575-736), called by the DAO. -/
def newModule (name : Addr → Nat → Nat) (b : Block) (c : Issuer.Chain) (dao self issuer : Addr)
    (d : Option Duration) (th : Option Active.ActiveThreshold) (t : NewToken) : Res World := do
  let vm ← TokenStaked.instantiate dao d th
  let iss ← newIssuer name c self issuer t.subdenom
  let msgs ← setupMsgs vm self t
  let iss ← sendAll self b msgs iss
  .ok { iss := iss, vm := vm, denom := name issuer t.subdenom, self := self }

/-- The callback of the voting module, contracts/voting/dao-voting-token-staked/src/contract.rs:715-726, sent by the DAO. -/
def callback (b : Block) (w : World) : Res World := do
  let (iss, _) ← Issuer.step w.iss { block := b, sender := w.vm.dao } (.exec (.updateOwnership .accept))
  .ok { w with iss := iss }

/-- A new DAO is created with such a module: the DAO carries out the callback,
contracts/dao-dao-core/src/contract.rs:987-1011. -/
def create (name : Addr → Nat → Nat) (b : Block) (c : Issuer.Chain) (dao self issuer : Addr)
    (d : Option Duration) (th : Option Active.ActiveThreshold) (t : NewToken) : Res World := do
  let w ← newModule name b c dao self issuer d th t
  callback b w

/-- A DAO replaces its voting module by such a module: the DAO does not read the callback,
contracts/dao-dao-core/src/contract.rs:1012-1019. -/
def replace (name : Addr → Nat → Nat) (b : Block) (c : Issuer.Chain) (dao self issuer : Addr)
    (d : Option Duration) (th : Option Active.ActiveThreshold) (t : NewToken) : Res World :=
  newModule name b c dao self issuer d th t

/-! ## Afterwards -/

/-- Transactions: a message to the issuer or the chain, a message to the voting module without funds, a stake call with
its funds. -/
inductive Call where
  | issuer (m : Issuer.Msg)
  | chain (m : Issuer.ChainMsg)
  | vm (m : TokenStaked.Msg)
  | stake (amount : Nat)
  deriving DecidableEq, Repr

/-- The bank transfer of the voting module, if any. The listener of the denomination is asked. -/
def settle (w : World) (c : TokenStaked.State) (out : TokenStaked.Out) : Res (World × TokenStaked.Out) :=
  match out.pay with
  | none => .ok ({ w with vm := c }, out)
  | some (a, n) => do
    let chain ← w.iss.chain.transfer w.iss.st w.iss.here w.self a w.denom n true
    .ok ({ w with vm := c, iss := { w.iss with chain := chain } }, out)

/-- A step of the issuer or the chain. The supply keeps fitting a `Uint128`. -/
def stepIss (w : World) (e : Issuer.Env) (c : Issuer.Call) : Res (World × TokenStaked.Out) := do
  require (decide (e.sender ≠ w.self)) .unauthorized
  let (iss, _) ← Issuer.step w.iss e c
  require (decide (supply iss.chain w.denom < U128)) .overflow
  .ok ({ w with iss := iss }, {})

/-- One transaction of anybody but the voting module, which after its creation only makes the transfers above. The coins
of a stake call are in the module's account before it runs. -/
def step (w : World) (e : Issuer.Env) : Call → Res (World × TokenStaked.Out)
  | .issuer m => stepIss w e (.exec m)
  | .chain m => stepIss w e (.chain m)
  | .vm m => do
    require (decide (e.sender ≠ w.self)) .unauthorized
    let (c, out) ← TokenStaked.exec w.vm e.block (supply w.iss.chain w.denom) e.sender m
    settle w c out
  | .stake n => do
    require (decide (e.sender ≠ w.self)) .unauthorized
    let chain ← w.iss.chain.transfer w.iss.st w.iss.here e.sender w.self w.denom n true
    let (c, out) ← TokenStaked.execStake w.vm e.block e.sender n
    .ok ({ w with vm := c, iss := { w.iss with chain := chain } }, out)

/-- The module was created with a new DAO or replaced another one. The three contracts have different addresses. -/
def Init (b : Block) (w : World) : Prop :=
  ∃ name c dao self issuer d th t, dao ≠ self ∧ dao ≠ issuer ∧ self ≠ issuer ∧
    (create name b c dao self issuer d th t = .ok w ∨ replace name b c dao self issuer d th t = .ok w)

/-- Histories of the module, the issuer and the chain. -/
def sys : Sys World Issuer.Env Call TokenStaked.Out where
  init := Init
  block e := e.block
  step := step

/-- `query_is_active`, contracts/voting/dao-voting-token-staked/src/contract.rs:485-545. -/
def active (w : World) : Res Bool := TokenStaked.active w.vm (supply w.iss.chain w.denom)

end Verif.TokenDao
