import Verif.Model.Cw20Stake
import Verif.Model.ExternalRewards
/-!
# A staking contract and its reward contracts

One cw20-stake contract and any number of cw20-stake-external-rewards contracts that reward its stakers. The reward
contracts are told about stake changes only while they are registered with the staking contract as hooks. Several of them
may pay in the same token, which may be the staked token itself: the balances of each token are kept once.
-/

namespace Verif.Farms

/-- A reward token, `cw20::UncheckedDenom` of contracts/staking/cw20-stake-external-rewards/src/msg.rs:19: a native
denomination or a cw20 token. -/
inductive Asset where
  | native (name : Nat)
  | cw20 (token : Addr)
  deriving DecidableEq, Repr

/-- The denomination the reward contract stores; it only ever asks whether it is native, and which cw20 token it is,
contracts/staking/cw20-stake-external-rewards/src/contract.rs:140-171 and 275-295. -/
def Asset.denom : Asset → ExternalRewards.Denom
  | .native _ => .native
  | .cw20 t => .cw20 t

/-- A reward contract and the token it pays in. -/
structure Pool where
  c : ExternalRewards.State
  asset : Asset
  deriving DecidableEq, Repr

/-- The staking contract with the balances of its token, the reward contracts by address, and the balances of the other
tokens. -/
structure World where
  stake : Cw20Stake.World
  pools : AMap Addr Pool
  tokens : AMap Asset (Ledger Addr)
  deriving DecidableEq, Repr

/-- The staked token. -/
def World.staked (w : World) : Asset := .cw20 w.stake.c.config.token

/-- The balances of a token. -/
def World.ledger (w : World) (d : Asset) : Ledger Addr :=
  if d = w.staked then w.stake.ledger else (w.tokens.get d).getD []

/-- New balances of a token. -/
def World.setLedger (w : World) (d : Asset) (l : Ledger Addr) : World :=
  if d = w.staked then { w with stake := { w.stake with ledger := l } } else { w with tokens := w.tokens.set d l }

/-- The answers of the staking contract to the queries of a reward contract,
contracts/staking/cw20-stake-external-rewards/src/contract.rs:343-382 and 415-429. -/
def stakes (s : Cw20Stake.World) (b : Block) : ExternalRewards.Stakes :=
  { total := Cw20Stake.totalStakedAt s.c b.height, of := fun a => Cw20Stake.stakedAt s.c a b.height }

/-- A reward contract with what it can see of the world. -/
def poolWorld (w : World) (a : Addr) (p : Pool) : ExternalRewards.World :=
  { c := p.c, self := a, ledger := w.ledger p.asset, stakes := w.stake.c.staked, totals := w.stake.c.stakedTotal }

/-- A movement of tokens. -/
inductive Move where
  | transfer (sender to : Addr) (amount : Nat)
  | mint (to : Addr) (amount : Nat)
  | burn (sender : Addr) (amount : Nat)
  deriving DecidableEq, Repr

/-- What a movement does to the balances; the supply of a token fits a `Uint128`. -/
def Move.apply (l : Ledger Addr) : Move → Res (Ledger Addr)
  | .transfer s t n => l.move s t n
  | .mint t n => do
    require (decide (total l + n < U128)) .overflow
    l.credit t n
  | .burn s n => l.debit s n

/-- Somebody who is not one of the modelled contracts: those send nothing but what their code sends. -/
def outside (w : World) (s : Addr) : Bool := decide (s ≠ w.stake.self) && (w.pools.get s).isNone

/-- Whoever makes a movement of tokens is not one of the contracts. -/
def Move.free (w : World) : Move → Bool
  | .transfer s _ _ => outside w s
  | .mint _ _ => true
  | .burn s _ => outside w s

/-- Whoever makes a call to the staking contract or moves its token is not one of the contracts. -/
def stakeFree (w : World) : Cw20Stake.Call → Bool
  | .exec s _ => outside w s
  | .send s _ _ => outside w s
  | .transfer s _ _ => outside w s
  | .mint _ _ => true
  | .burn s _ => outside w s

/-- A call to a reward contract: a message, or tokens sent along with `Fund`. -/
inductive PoolCall where
  | exec (sender : Addr) (m : ExternalRewards.Msg)
  | fund (sender : Addr) (amount : Nat)
  deriving DecidableEq, Repr

/-- Its sender. -/
def PoolCall.sender : PoolCall → Addr
  | .exec s _ => s
  | .fund s _ => s

/-- The call in the model of the reward contract. -/
def PoolCall.call : PoolCall → ExternalRewards.Call
  | .exec s m => .exec s m
  | .fund s n => .fund s n

/-- Transactions: something happens at the staking contract or with its token; another token moves; a reward contract is
created at a new address; somebody calls a reward contract. -/
inductive Call where
  | stake (c : Cw20Stake.Call)
  | token (d : Asset) (m : Move)
  | create (a : Addr) (owner : Option Addr) (d : Asset) (duration : Nat)
  | pool (a : Addr) (c : PoolCall)
  deriving DecidableEq, Repr

/-- What a transaction sends: the messages of the staking contract, the payment of the reward contract. -/
structure Out where
  stake : Cw20Stake.Out := {}
  pay : ExternalRewards.Pay := none
  deriving DecidableEq, Repr

/-- The hook messages of the staking contract, one after another: a reward contract executes `StakeChangeHook`,
contracts/staking/cw20-stake-external-rewards/src/contract.rs:210-242. The messages are plain ones
(packages/dao-hooks/src/stake.rs:22-29): if one fails, the whole transaction fails. Receivers that are not reward contracts
are other contracts, which accept the message. -/
def deliver (staking : Addr) (b : Block) (k : ExternalRewards.Stakes) :
    List Cw20Stake.HookMsg → AMap Addr Pool → Res (AMap Addr Pool)
  | [], ps => .ok ps
  | m :: rest, ps =>
    match ps.get m.to with
    | none => deliver staking b k rest ps
    | some p => do
      let (c, _) ← ExternalRewards.exec p.c b k staking (.stakeChangeHook m.staker)
      deliver staking b k rest (ps.set m.to { p with c := c })

/-- One transaction. -/
def step (w : World) (b : Block) : Call → Res (World × Out)
  | .stake c => do
    require (stakeFree w c) .unauthorized
    let (s, o) ← Cw20Stake.step w.stake b c
    let ps ← deliver s.self b (stakes s b) o.hooks w.pools
    .ok ({ w with stake := s, pools := ps }, { stake := o })
  | .token d m => do
    require (decide (d ≠ w.staked)) .invalid
    require (m.free w) .unauthorized
    let l ← m.apply (w.ledger d)
    .ok (w.setLedger d l, {})
  | .create a owner d duration => do
    require (outside w a) .invalid
    let c ← ExternalRewards.instantiate owner w.stake.self d.denom duration
    .ok ({ w with pools := w.pools.set a ⟨c, d⟩ }, {})
  | .pool a c => do
    let p ← orErr (w.pools.get a) .notFound
    require (outside w c.sender) .unauthorized
    let (q, pay) ← ExternalRewards.step (poolWorld w a p) b c.call
    .ok (({ w with pools := w.pools.set a { p with c := q.c } }).setLedger p.asset q.ledger, { pay := pay })

/-- `query_pending_rewards` of the reward contract at `a`,
contracts/staking/cw20-stake-external-rewards/src/contract.rs:431-457. -/
def pendingRewards (w : World) (b : Block) (a : Addr) (staker : Addr) : Res Nat := do
  let p ← orErr (w.pools.get a) .notFound
  ExternalRewards.queryPending p.c b (stakes w.stake b) staker

/-- From the instantiation of the staking contract on, without reward contracts. -/
def sys : Sys World Block Call Out where
  init b w := Cw20Stake.sys.init b w.stake ∧ w.pools = [] ∧ ∀ d, total (w.ledger d) < U128
  block b := b
  step := step

/-- An event of a history. -/
abbrev Event := Ev World Block Call Out

end Verif.Farms
