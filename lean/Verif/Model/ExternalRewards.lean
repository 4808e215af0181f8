import Verif.Base.Ledger
import Verif.Base.Ownable
import Verif.Base.Snapshot
import Verif.Base.History
/-!
# cw20-stake-external-rewards

Rewards paid per block to the stakers of a cw20-stake contract, which announces every change of a stake
to this contract by a hook message in the same transaction. cw20-stake answers a query without a height
for the height of the current block, that is with the value at the beginning of the block
(`Cw20Stake.qStakedAtHeight`); the staking contract appears here as its two snapshot maps.
-/

namespace Verif.ExternalRewards

/-- `scale_factor`, contracts/staking/cw20-stake-external-rewards/src/contract.rs:411-413. -/
def SCALE : Nat := 10 ^ 39
theorem SCALE_pos : 0 < SCALE := by decide
theorem U128_lt_SCALE : U128 < SCALE := by decide +kernel
attribute [irreducible] SCALE

/-- `Uint256::checked_mul`. -/
def mul256 (a b : Nat) : Res Nat := if a * b < U256 then .ok (a * b) else .error .overflow
/-- `Uint256 + Uint256`. -/
def add256 (a b : Nat) : Res Nat := if a + b < U256 then .ok (a + b) else .error .overflow
/-- `Uint256::checked_sub`, and `u64 - u64`, which panics below zero. -/
def subN (a b : Nat) : Res Nat := if b ≤ a then .ok (a - b) else .error .underflow
/-- `Uint128::try_from(Uint256)`. -/
def to128 (a : Nat) : Res Nat := if a < U128 then .ok a else .error .overflow

/-- `cw20::Denom` of the reward token: a native denomination or a cw20 contract. -/
inductive Denom where
  | native
  | cw20 (token : Addr)
  deriving DecidableEq, Repr

/-- The storage of the contract, contracts/staking/cw20-stake-external-rewards/src/state.rs:7-30, and the
ownership kept by cw_ownable. A missing `REWARD_PER_TOKEN` or `LAST_UPDATE_BLOCK` is read as zero, so they
start as zero. -/
structure State where
  ownership : Ownership
  staking : Addr
  token : Denom
  finish : Nat
  rate : Nat
  duration : Nat
  perToken : Nat
  lastUpdate : Nat
  pending : AMap Addr Nat
  userPerToken : AMap Addr Nat
  deriving DecidableEq, Repr

/-- What the queries to the staking contract answer in this transaction: `TotalStakedAtHeight` and
`StakedBalanceAtHeight` of an address. -/
structure Stakes where
  total : Nat
  of : Addr → Nat

/-- `instantiate`, contracts/staking/cw20-stake-external-rewards/src/contract.rs:32-83. -/
def instantiate (owner : Option Addr) (staking : Addr) (token : Denom) (duration : Nat) : Res State := do
  require (decide (duration ≠ 0)) .invalid
  .ok { ownership := { owner := owner }, staking := staking, token := token, finish := 0, rate := 0,
        duration := duration, perToken := 0, lastUpdate := 0, pending := [], userPerToken := [] }

/-- `get_last_time_reward_applicable`, contracts/staking/cw20-stake-external-rewards/src/contract.rs:362-365. -/
def applicable (s : State) (b : Block) : Nat := min b.height s.finish

/-- The reward for the blocks since the last update, per staked token, scaled: the second half of
`get_reward_per_token`, contracts/staking/cw20-stake-external-rewards/src/contract.rs:325-338. -/
def additional (s : State) (b : Block) (total : Nat) : Res Nat :=
  if total = 0 then .ok 0
  else do
    let d ← subN (applicable s b) s.lastUpdate
    let n ← mul256 (s.rate * d) SCALE
    .ok (n / total)

/-- `get_reward_per_token`, contracts/staking/cw20-stake-external-rewards/src/contract.rs:319-341. -/
def rewardPerToken (s : State) (b : Block) (total : Nat) : Res Nat := do
  let add ← additional s b total
  add256 s.perToken add

/-- `get_rewards_earned`, contracts/staking/cw20-stake-external-rewards/src/contract.rs:343-360. -/
def rewardsEarned (s : State) (k : Stakes) (a : Addr) (perToken : Nat) : Res Nat := do
  let f ← subN perToken (getD0 s.userPerToken a)
  let n ← mul256 (k.of a) f
  to128 (n / SCALE)

/-- `update_rewards`, contracts/staking/cw20-stake-external-rewards/src/contract.rs:297-317. -/
def updateRewards (s : State) (b : Block) (k : Stakes) (a : Addr) : Res State := do
  let r ← rewardPerToken s b k.total
  let e ← rewardsEarned s k a r
  let p ← add128 (getD0 s.pending a) e
  .ok { s with perToken := r, pending := s.pending.set a p, userPerToken := s.userPerToken.set a r,
               lastUpdate := applicable s b }

/-- `query_pending_rewards`, contracts/staking/cw20-stake-external-rewards/src/contract.rs:431-457. -/
def queryPending (s : State) (b : Block) (k : Stakes) (a : Addr) : Res Nat := do
  let r ← rewardPerToken s b k.total
  let e ← rewardsEarned s k a r
  add128 e (getD0 s.pending a)

/-- `execute_fund`, contracts/staking/cw20-stake-external-rewards/src/contract.rs:173-208. -/
def execFund (s : State) (b : Block) (k : Stakes) (sender : Addr) (amount : Nat) : Res State := do
  s.ownership.assertOwner sender
  let s ← updateRewards s b k sender
  require (decide (s.finish ≤ b.height)) .invalid
  let f ← add64 b.height s.duration
  require (decide (s.duration ≠ 0)) .panic
  require (decide (amount / s.duration ≠ 0)) .invalid
  .ok { s with finish := f, rate := amount / s.duration, lastUpdate := b.height }

/-- `ExecuteMsg`, contracts/staking/cw20-stake-external-rewards/src/msg.rs:25-31. `fund n`: with `n` coins
of the reward denomination attached; `receive sender n`: a `Cw20ReceiveMsg` that carries `Fund`. -/
inductive Msg where
  | stakeChangeHook (a : Addr)
  | claim
  | receive (sender : Addr) (amount : Nat)
  | fund (amount : Nat)
  | updateRewardDuration (d : Nat)
  | updateOwnership (x : OwnerAction)
  deriving DecidableEq, Repr

/-- The transfer of reward tokens a call sends out. -/
abbrev Pay := Option (Addr × Nat)

/-- `execute_claim`, contracts/staking/cw20-stake-external-rewards/src/contract.rs:244-263. -/
def execClaim (s : State) (b : Block) (k : Stakes) (sender : Addr) : Res (State × Pay) := do
  let s ← updateRewards s b k sender
  let r ← orErr (s.pending.get sender) .notFound
  require (decide (r ≠ 0)) .invalid
  .ok ({ s with pending := s.pending.set sender 0 }, some (sender, r))

/-- `execute_update_reward_duration`, contracts/staking/cw20-stake-external-rewards/src/contract.rs:384-409. -/
def execUpdateDuration (s : State) (b : Block) (sender : Addr) (d : Nat) : Res State := do
  s.ownership.assertOwner sender
  require (decide (s.finish ≤ b.height)) .invalid
  require (decide (d ≠ 0)) .invalid
  .ok { s with duration := d }

/-- `execute`, contracts/staking/cw20-stake-external-rewards/src/contract.rs:122-138, with
`execute_receive` (140-155), `execute_fund_native` (157-171), `execute_stake_changed` (210-224), whose two
cases (226-242) do the same, and `execute_update_owner` (265-273). -/
def exec (s : State) (b : Block) (k : Stakes) (sender : Addr) : Msg → Res (State × Pay)
  | .stakeChangeHook a => do
    require (decide (sender = s.staking)) .unauthorized
    let s ← updateRewards s b k a
    .ok (s, none)
  | .claim => execClaim s b k sender
  | .receive from_ amount => do
    require (decide (s.token = .cw20 sender)) .invalid
    let s ← execFund s b k from_ amount
    .ok (s, none)
  | .fund amount => do
    require (decide (s.token = .native)) .invalid
    require (decide (amount ≠ 0)) .invalid
    let s ← execFund s b k sender amount
    .ok (s, none)
  | .updateRewardDuration d => do
    let s ← execUpdateDuration s b sender d
    .ok (s, none)
  | .updateOwnership x => do
    let o ← s.ownership.update b sender x
    .ok ({ s with ownership := o }, none)

/-! ## The contract, the staking contract and the reward token -/

/-- The contract, its own address, the balances of the reward token, and what the staking contract
records: the stake of each address and the total. -/
structure World where
  c : State
  self : Addr
  ledger : Ledger Addr
  stakes : Snap Addr Nat
  totals : Snap Unit Nat
  deriving DecidableEq, Repr

/-- `cw20_stake::query_staked_balance_at_height`, contracts/staking/cw20-stake/src/contract.rs:359-371: the
current height when none is given, missing entries are zero. -/
def World.stakeAt (w : World) (a : Addr) (h : Nat) : Nat := (w.stakes.atHeight a h).getD 0
/-- `cw20_stake::query_total_staked_at_height`, contracts/staking/cw20-stake/src/contract.rs:373-383. -/
def World.totalAt (w : World) (h : Nat) : Nat := (w.totals.atHeight () h).getD 0
/-- The stake of `a` now. -/
def World.stake (w : World) (a : Addr) : Nat := (w.stakes.get a).getD 0
/-- The total stake now. -/
def World.total (w : World) : Nat := (w.totals.get ()).getD 0

/-- What the queries of a transaction in block `b` return. -/
def World.view (w : World) (b : Block) : Stakes :=
  { total := w.totalAt b.height, of := fun a => w.stakeAt a b.height }

/-- Transactions: a call by anybody but the reward token and the staking contract; the reward tokens sent
along with `Fund`; a transfer of reward tokens; newly minted reward tokens; a holder's burn; the staking contract sets the
stake of `a` to `n` and, when this contract is registered with it (`hooked`), announces that. -/
inductive Call where
  | exec (sender : Addr) (m : Msg)
  | fund (sender : Addr) (amount : Nat)
  | transfer (sender to : Addr) (amount : Nat)
  | mint (to : Addr) (amount : Nat)
  | burn (sender : Addr) (amount : Nat)
  | setStake (a : Addr) (n : Nat) (hooked : Bool)
  deriving DecidableEq, Repr

/-- The contract's transfer of reward tokens, if any. -/
def settle (w : World) (c : State) (out : Pay) : Res (World × Pay) :=
  match out with
  | none => .ok ({ w with c := c }, none)
  | some (a, n) => do
    let l ← w.ledger.move w.self a n
    .ok ({ w with c := c, ledger := l }, some (a, n))

/-- A message is forged when it claims tokens that are not attached: `Fund` with coins, or a receive
message from the token contract. Those come only with the tokens, as `Call.fund`. -/
def honest (s : State) (sender : Addr) : Msg → Bool
  | .fund n => decide (n = 0)
  | .receive _ _ => decide (s.token ≠ .cw20 sender)
  | .stakeChangeHook _ => decide (sender ≠ s.staking)
  | _ => true

/-- How `amount` tokens reach the contract with `Fund`. -/
def fundMsg (s : State) (sender : Addr) (amount : Nat) : Addr × Msg :=
  match s.token with
  | .native => (sender, .fund amount)
  | .cw20 t => (t, .receive sender amount)

/-- The staking contract's own part of a stake change; the total fits a `Uint128`. -/
def recordStake (w : World) (b : Block) (a : Addr) (n : Nat) : Res World := do
  require (decide (w.total - w.stake a + n < U128)) .overflow
  .ok { w with stakes := w.stakes.save a n b.height,
               totals := w.totals.save () (w.total - w.stake a + n) b.height }

/-- One transaction. -/
def step (w : World) (b : Block) : Call → Res (World × Pay)
  | .exec sender m => do
    require (decide (sender ≠ w.self)) .unauthorized
    require (honest w.c sender m) .unauthorized
    let (c, out) ← exec w.c b (w.view b) sender m
    settle w c out
  | .fund sender amount => do
    require (decide (sender ≠ w.self)) .unauthorized
    let l ← w.ledger.move sender w.self amount
    let (c, out) ← exec w.c b (w.view b) (fundMsg w.c sender amount).1 (fundMsg w.c sender amount).2
    settle { w with ledger := l } c out
  | .transfer sender to amount => do
    require (decide (sender ≠ w.self)) .unauthorized
    let l ← w.ledger.move sender to amount
    .ok ({ w with ledger := l }, none)
  | .mint to amount => do
    require (decide (Verif.total w.ledger + amount < U128)) .overflow
    let l ← w.ledger.credit to amount
    .ok ({ w with ledger := l }, none)
  | .burn sender amount => do
    require (decide (sender ≠ w.self)) .unauthorized
    let l ← w.ledger.debit sender amount
    .ok ({ w with ledger := l }, none)
  | .setStake a n hooked => do
    let w1 ← recordStake w b a n
    if hooked then do
      let (c, out) ← exec w1.c b (w1.view b) w1.c.staking (.stakeChangeHook a)
      settle w1 c out
    else .ok (w1, none)

/-- The transition system in which the contract stays registered with the staking contract, over any
stakes and balances at instantiation. -/
def sys : Sys World Block Call Pay where
  init b w := (∃ owner staking token d, instantiate owner staking token d = .ok w.c) ∧
    AMap.WF w.stakes.cur ∧ w.total = Verif.total w.stakes.cur ∧ w.total < U128 ∧
    w.stakes.UpTo b.height ∧ w.totals.UpTo b.height ∧ Verif.total w.ledger < U128
  block b := b
  step w b call := do
    require (match call with | .setStake _ _ false => false | _ => true) .invalid
    step w b call

end Verif.ExternalRewards
