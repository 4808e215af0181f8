import Verif.Base.History
import Verif.Base.Snapshot
import Verif.Base.Claims
import Verif.Base.Ownable
import Verif.Base.Ledger
import Verif.Model.Hooks
/-!
# Model of `contracts/staking/cw20-stake`

The contract is modelled together with the ledger of its cw20 token. Simplifications, all of them:
addresses validate; event attributes, the cw2 version, `migrate` and the paginated list of stakers are
dropped (pagination is modelled separately); the smoke test of the token address at instantiation
succeeds. The token is a faithful cw20: it calls `Receive` exactly when tokens are sent to the contract,
and moves the tokens in the same transaction. Hook receivers are other contracts: the messages sent to
them are recorded, their own calls to this contract are later steps of the history.
-/

namespace Verif.Cw20Stake
open Verif

/-- `Config`, contracts/staking/cw20-stake/src/state.rs:9-12. -/
structure Config where
  token : Addr
  unstakingDuration : Option Duration
  deriving DecidableEq, Repr

/-- The storage of the contract, contracts/staking/cw20-stake/src/state.rs:14-39, and the ownership kept
by cw-ownable. -/
structure State where
  config : Config
  staked : Snap Addr Nat
  stakedTotal : Snap Unit Nat
  claims : Claims
  balance : Nat
  hooks : Hooks.HookList
  ownership : Ownership
  deriving DecidableEq, Repr

/-- `MAX_CLAIMS`, contracts/staking/cw20-stake/src/state.rs:32. -/
def MAX_CLAIMS : Nat := 100

/-- `amount_to_stake`, contracts/staking/cw20-stake/src/math.rs:13-27. -/
def amountToStake (stakedTotal balance sent : Nat) : Res Nat :=
  if stakedTotal = 0 ∨ balance = 0 then .ok sent
  else if stakedTotal * sent / balance < U128 then .ok (stakedTotal * sent / balance)
  else .error .panic

/-- `amount_to_claim`, contracts/staking/cw20-stake/src/math.rs:49-70; dividing by zero panics. -/
def amountToClaim (stakedTotal balance ask : Nat) : Res Nat :=
  if stakedTotal = 0 then .error .panic
  else if ask * balance / stakedTotal < U128 then .ok (ask * balance / stakedTotal)
  else .error .panic

/-- `validate_duration`, packages/dao-voting/src/duration.rs:10-26. -/
def validateDuration : Option Duration → Res Unit
  | none => .ok ()
  | some (.height n) => require (decide (n ≠ 0)) .invalid
  | some (.time n) => require (decide (n ≠ 0)) .invalid

/-- `ReceiveMsg`, contracts/staking/cw20-stake/src/msg.rs:34-37. -/
inductive Receive where
  | stake
  | fund
  deriving DecidableEq, Repr

/-- `ExecuteMsg`, contracts/staking/cw20-stake/src/msg.rs:24-31. -/
inductive Msg where
  | receive (sender : Addr) (amount : Nat) (msg : Receive)
  | unstake (amount : Nat)
  | claim
  | updateConfig (duration : Option Duration)
  | addHook (a : Addr)
  | removeHook (a : Addr)
  | updateOwnership (x : OwnerAction)
  deriving DecidableEq, Repr

/-- `StakeChangedHookMsg` to one receiver, packages/dao-hooks/src/stake.rs:5-10. -/
structure HookMsg where
  to : Addr
  isStake : Bool
  staker : Addr
  amount : Nat
  deriving DecidableEq, Repr

/-- What a call sends: a cw20 transfer, and messages to the hooks. -/
structure Out where
  pay : Option (Addr × Nat) := none
  hooks : List HookMsg := []
  deriving DecidableEq, Repr

/-- `stake_hook_msgs` and `unstake_hook_msgs`, packages/dao-hooks/src/stake.rs:14-52. -/
def hookMsgs (h : Hooks.HookList) (isStake : Bool) (a : Addr) (n : Nat) : List HookMsg :=
  Hooks.prepareHooks h (fun _ to => ⟨to, isStake, a, n⟩)

/-- `STAKED_TOTAL.load`; saved at instantiation. -/
def State.total (s : State) : Nat := (s.stakedTotal.get ()).getD 0

/-- `STAKED_BALANCES` of an address, `unwrap_or_default`. -/
def State.stakedOf (s : State) (a : Addr) : Nat := (s.staked.get a).getD 0

/-- `instantiate`, contracts/staking/cw20-stake/src/contract.rs:40-75. -/
def instantiate (b : Block) (owner : Option Addr) (token : Addr) (duration : Option Duration) :
    Res State := do
  validateDuration duration
  .ok { config := ⟨token, duration⟩, staked := Snap.empty,
        stakedTotal := Snap.empty.save () 0 b.height, claims := [], balance := 0, hooks := none,
        ownership := { owner := owner } }

/-- `execute_stake`, contracts/staking/cw20-stake/src/contract.rs:140-173. -/
def execStake (s : State) (b : Block) (sender : Addr) (amount : Nat) : Res (State × Out) := do
  let n ← amountToStake s.total s.balance amount
  let x ← add128 (s.stakedOf sender) n
  let t ← add128 s.total n
  let bal ← add128 s.balance amount
  .ok ({ s with staked := s.staked.save sender x b.height
                stakedTotal := s.stakedTotal.save () t b.height
                balance := bal },
       { hooks := hookMsgs s.hooks true sender n })

/-- `execute_fund`, contracts/staking/cw20-stake/src/contract.rs:283-296. -/
def execFund (s : State) (amount : Nat) : Res (State × Out) := do
  let bal ← add128 s.balance amount
  .ok ({ s with balance := bal }, {})

/-- `execute_receive`, contracts/staking/cw20-stake/src/contract.rs:119-138. -/
def execReceive (s : State) (b : Block) (caller sender : Addr) (amount : Nat) (m : Receive) :
    Res (State × Out) := do
  require (decide (caller = s.config.token)) .unauthorized
  match m with
  | .stake => execStake s b sender amount
  | .fund => execFund s amount

/-- The end of `execute_unstake`, contracts/staking/cw20-stake/src/contract.rs:217-254: pay at once or
create a claim. -/
def release (s : State) (b : Block) (a : Addr) (amount : Nat) (hooks : List HookMsg) :
    Res (State × Out) :=
  match s.config.unstakingDuration with
  | none => .ok (s, { pay := some (a, amount), hooks := hooks })
  | some d =>
    if (s.claims.of a).length + 1 > MAX_CLAIMS then .error (.custom 1)
    else .ok ({ s with claims := s.claims.create a amount (d.after b) }, { hooks := hooks })

/-- `execute_unstake`, contracts/staking/cw20-stake/src/contract.rs:175-255. -/
def execUnstake (s : State) (b : Block) (sender : Addr) (amount : Nat) : Res (State × Out) := do
  require (decide (s.total ≠ 0)) .invalid
  require (decide (amount + s.balance < U128 - 1)) .invalid
  require (decide (amount ≤ s.total)) .invalid
  let n ← amountToClaim s.total s.balance amount
  let x ← sub128 (s.stakedOf sender) amount
  let t ← sub128 s.total amount
  let bal ← sub128 s.balance n
  release { s with staked := s.staked.save sender x b.height
                   stakedTotal := s.stakedTotal.save () t b.height
                   balance := bal } b sender n (hookMsgs s.hooks false sender amount)

/-- `execute_claim`, contracts/staking/cw20-stake/src/contract.rs:257-281. -/
def execClaim (s : State) (b : Block) (sender : Addr) : Res (State × Out) := do
  let (c, n) ← s.claims.claimTokens sender b
  require (decide (n ≠ 0)) .invalid
  .ok ({ s with claims := c }, { pay := some (sender, n) })

/-- `execute_update_config`, contracts/staking/cw20-stake/src/contract.rs:95-117. -/
def execUpdateConfig (s : State) (sender : Addr) (d : Option Duration) : Res (State × Out) := do
  s.ownership.assertOwner sender
  validateDuration d
  .ok ({ s with config := { s.config with unstakingDuration := d } }, {})

/-- `execute`, contracts/staking/cw20-stake/src/contract.rs:78-93, with `execute_add_hook`,
`execute_remove_hook` and `execute_update_owner`, contract.rs:298-334. -/
def exec (s : State) (b : Block) (sender : Addr) : Msg → Res (State × Out)
  | .receive a n m => execReceive s b sender a n m
  | .unstake n => execUnstake s b sender n
  | .claim => execClaim s b sender
  | .updateConfig d => execUpdateConfig s sender d
  | .addHook a => do
    s.ownership.assertOwner sender
    let h ← Hooks.addHook s.hooks a
    .ok ({ s with hooks := h }, {})
  | .removeHook a => do
    s.ownership.assertOwner sender
    let h ← Hooks.removeHook s.hooks a
    .ok ({ s with hooks := h }, {})
  | .updateOwnership x => do
    let o ← s.ownership.update b sender x
    .ok ({ s with ownership := o }, {})

/-- `query_staked_balance_at_height`, contracts/staking/cw20-stake/src/contract.rs:359-371. -/
def stakedAt (s : State) (a : Addr) (h : Nat) : Nat := (s.staked.atHeight a h).getD 0

/-- `query_total_staked_at_height`, contracts/staking/cw20-stake/src/contract.rs:373-383. -/
def totalStakedAt (s : State) (h : Nat) : Nat := (s.stakedTotal.atHeight () h).getD 0

/-- `query_staked_value`, contracts/staking/cw20-stake/src/contract.rs:385-408. -/
def stakedValue (s : State) (a : Addr) : Res Nat :=
  if s.balance = 0 ∨ s.stakedOf a = 0 ∨ s.total = 0 then .ok 0
  else do
    let p ← mul128 (s.stakedOf a) s.balance
    .ok (p / s.total)

/-- `query_total_value`, contracts/staking/cw20-stake/src/contract.rs:410-413. -/
def totalValue (s : State) : Nat := s.balance

/-! ## The contract and its token -/

/-- The contract, its own address, and the ledger of the token. -/
structure World where
  c : State
  self : Addr
  ledger : Ledger Addr
  deriving DecidableEq, Repr

/-- Transactions: a call to the contract by somebody who is not the token; tokens sent to the contract
with a message; a plain token transfer; newly minted tokens; a holder's burn. -/
inductive Call where
  | exec (sender : Addr) (m : Msg)
  | send (sender : Addr) (amount : Nat) (m : Receive)
  | transfer (sender to : Addr) (amount : Nat)
  | mint (to : Addr) (amount : Nat)
  | burn (sender : Addr) (amount : Nat)
  deriving DecidableEq, Repr

/-- The contract's cw20 transfer, if any. -/
def settle (w : World) (c : State) (out : Out) : Res (World × Out) :=
  match out.pay with
  | none => .ok ({ w with c := c }, out)
  | some (a, n) => do
    let l ← w.ledger.move w.self a n
    .ok ({ w with c := c, ledger := l }, out)

/-- One transaction. The contract never calls itself nor the token except by the transfers above, so
`self` sends no other tokens. The supply of the token fits a `Uint128`, as cw20-base keeps it in one. -/
def step (w : World) (b : Block) : Call → Res (World × Out)
  | .exec sender m => do
    require (decide (sender ≠ w.c.config.token ∧ sender ≠ w.self)) .unauthorized
    let (c, out) ← exec w.c b sender m
    settle w c out
  | .send sender amount m => do
    require (decide (sender ≠ w.self)) .unauthorized
    let l ← w.ledger.move sender w.self amount
    let (c, out) ← exec w.c b w.c.config.token (.receive sender amount m)
    settle { w with ledger := l } c out
  | .transfer sender to amount => do
    require (decide (sender ≠ w.self)) .unauthorized
    let l ← w.ledger.move sender to amount
    .ok ({ w with ledger := l }, {})
  | .mint to amount => do
    require (decide (total w.ledger + amount < U128)) .overflow
    let l ← w.ledger.credit to amount
    .ok ({ w with ledger := l }, {})
  | .burn sender amount => do
    require (decide (sender ≠ w.self)) .unauthorized
    let l ← w.ledger.debit sender amount
    .ok ({ w with ledger := l }, {})

/-- The transition system: any instantiation over any ledger whose supply fits. -/
def sys : Sys World Block Call Out where
  init b w := ∃ owner token d, instantiate b owner token d = .ok w.c ∧ total w.ledger < U128 ∧
    token ≠ w.self
  block b := b
  step := step

end Verif.Cw20Stake
