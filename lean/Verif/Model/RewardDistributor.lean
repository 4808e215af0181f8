import Verif.Base.Ledger
import Verif.Base.Ownable
import Verif.Base.History
/-!
# cw20-stake-reward-distributor

Holds a cw20 token and sends a configured amount of it per block to a staking contract.
-/

namespace Verif.RewardDistributor

/-- The storage of the contract, contracts/staking/cw20-stake-reward-distributor/src/state.rs:5-15, and the
ownership kept by cw_ownable. -/
structure State where
  ownership : Ownership
  staking : Addr
  rate : Nat
  token : Addr
  lastPayment : Nat
  deriving DecidableEq, Repr

/-- What a transaction sees of the chain: its block, whether the queries that validate a staking contract
and a token succeed (`validate_staking`, `validate_cw20`,
contracts/staking/cw20-stake-reward-distributor/src/contract.rs:126-140), and whether the staking contract
accepts the tokens sent to it. -/
structure Env where
  block : Block
  okStaking : Bool := true
  okToken : Bool := true
  accepts : Bool := true
  deriving DecidableEq, Repr

/-- `instantiate`, contracts/staking/cw20-stake-reward-distributor/src/contract.rs:17-52. -/
def instantiate (e : Env) (owner staking : Addr) (rate : Nat) (token : Addr) : Res State := do
  require e.okStaking .invalid
  require e.okToken .invalid
  .ok { ownership := { owner := some owner }, staking := staking, rate := rate, token := token,
        lastPayment := e.block.height }

/-- `ExecuteMsg`, contracts/staking/cw20-stake-reward-distributor/src/msg.rs:21-29. -/
inductive Msg where
  | updateConfig (staking : Addr) (rate : Nat) (token : Addr)
  | distribute
  | withdraw
  | updateOwnership (x : OwnerAction)
  deriving DecidableEq, Repr

/-- A message to the token contract: `Send` to the staking contract with a `Fund` message, or `Transfer`. -/
inductive Pay where
  | send (token to : Addr) (amount : Nat)
  | transfer (token to : Addr) (amount : Nat)
  deriving DecidableEq, Repr

/-- `get_distribution_msg`, contracts/staking/cw20-stake-reward-distributor/src/contract.rs:142-178, with
the contract's balance of the configured token. -/
def distributionMsg (s : State) (b : Block) (balance : Nat) : Res Pay := do
  require (decide (s.lastPayment < b.height)) .invalid
  let pending ← mul128 s.rate (b.height - s.lastPayment)
  require (decide (min balance pending ≠ 0)) .invalid
  .ok (.send s.token s.staking (min balance pending))

/-- `match get_distribution_msg { Ok(msg) => .., _ => .. }`,
contracts/staking/cw20-stake-reward-distributor/src/contract.rs:102-107: errors are dropped, a panic of the
multiplication is not. -/
def ignoreErr (r : Res Pay) : Res (Option Pay) :=
  match r with
  | .ok p => .ok (some p)
  | .error .overflow => .error .overflow
  | .error _ => .ok none

/-- `execute_update_config`, contracts/staking/cw20-stake-reward-distributor/src/contract.rs:73-114. The
distribution is computed from the new configuration, with the contract's balance of the new token. -/
def execUpdateConfig (s : State) (e : Env) (balance : Addr → Nat) (sender staking : Addr) (rate : Nat)
    (token : Addr) : Res (State × Option Pay) := do
  s.ownership.assertOwner sender
  require e.okStaking .invalid
  require e.okToken .invalid
  let s' : State := { s with lastPayment := e.block.height, staking := staking, rate := rate, token := token }
  let p ← ignoreErr (distributionMsg s' e.block (balance token))
  .ok (s', p)

/-- `execute_distribute`, contracts/staking/cw20-stake-reward-distributor/src/contract.rs:180-186. -/
def execDistribute (s : State) (e : Env) (balance : Addr → Nat) : Res (State × Option Pay) := do
  let p ← distributionMsg s e.block (balance s.token)
  .ok ({ s with lastPayment := e.block.height }, some p)

/-- `execute_withdraw`, contracts/staking/cw20-stake-reward-distributor/src/contract.rs:188-221. -/
def execWithdraw (s : State) (balance : Addr → Nat) (sender : Addr) : Res (State × Option Pay) := do
  s.ownership.assertOwner sender
  .ok (s, some (.transfer s.token sender (balance s.token)))

/-- `execute`, contracts/staking/cw20-stake-reward-distributor/src/contract.rs:55-71, with
`execute_update_owner` (116-124). -/
def exec (s : State) (e : Env) (balance : Addr → Nat) (sender : Addr) : Msg → Res (State × Option Pay)
  | .updateConfig staking rate token => execUpdateConfig s e balance sender staking rate token
  | .distribute => execDistribute s e balance
  | .withdraw => execWithdraw s balance sender
  | .updateOwnership x => do
    let o ← s.ownership.update e.block sender x
    .ok ({ s with ownership := o }, none)

/-- The contract, its own address and the balances of all tokens, by token and holder. -/
structure World where
  c : State
  self : Addr
  ledger : Ledger (Addr × Addr)
  deriving DecidableEq, Repr

/-- The contract's balance of each token. -/
def World.balance (w : World) (token : Addr) : Nat := getD0 w.ledger (token, w.self)

/-- Transactions: a call of the contract, a transfer of a token, newly minted tokens. -/
inductive Call where
  | exec (sender : Addr) (m : Msg)
  | transfer (token sender to : Addr) (amount : Nat)
  | mint (token to : Addr) (amount : Nat)
  deriving DecidableEq, Repr

/-- The message to the token contract. A `Send` calls the receiver, which may refuse; this contract itself
has no receive message. -/
def settle (w : World) (e : Env) (c : State) : Option Pay → Res (World × Option Pay)
  | none => .ok ({ w with c := c }, none)
  | some (.send t a n) => do
    require e.accepts .invalid
    require (decide (a ≠ w.self)) .invalid
    let l ← w.ledger.move (t, w.self) (t, a) n
    .ok ({ w with c := c, ledger := l }, some (.send t a n))
  | some (.transfer t a n) => do
    let l ← w.ledger.move (t, w.self) (t, a) n
    .ok ({ w with c := c, ledger := l }, some (.transfer t a n))

/-- One transaction. -/
def step (w : World) (e : Env) : Call → Res (World × Option Pay)
  | .exec sender m => do
    require (decide (sender ≠ w.self)) .unauthorized
    let (c, p) ← exec w.c e w.balance sender m
    settle w e c p
  | .transfer t sender to n => do
    require (decide (sender ≠ w.self)) .unauthorized
    let l ← w.ledger.move (t, sender) (t, to) n
    .ok ({ w with ledger := l }, none)
  | .mint t to n => do
    let l ← w.ledger.credit (t, to) n
    .ok ({ w with ledger := l }, none)

/-- The transition system. -/
def sys : Sys World Env Call (Option Pay) where
  init b w := ∃ e owner staking rate token, e.block = b ∧ instantiate e owner staking rate token = .ok w.c
  block e := e.block
  step := step

end Verif.RewardDistributor
