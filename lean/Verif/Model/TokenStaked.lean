import Verif.Model.Cw20Stake
import Verif.Model.ActiveThreshold
/-!
# Model of `contracts/voting/dao-voting-token-staked`

The contract is modelled together with the bank's ledger of its denomination. Simplifications, all of
them: addresses validate; event attributes, the cw2 version, `migrate` and the paginated list of stakers
are dropped; `must_pay` fails unless exactly one coin, of the contract's denomination and not zero, is
sent, so a stake call is its amount; denomination metadata is dropped. The bank moves the sent funds to
the contract before the call. Hook receivers are other contracts: the messages sent to them are recorded,
their own calls to this contract are later steps of the history. The chain does not take tokens from the
contract (a token factory that lets its admin burn or move tokens of others is not modelled).
-/

namespace Verif.TokenStaked
open Verif Verif.Active
open Verif.Cw20Stake (validateDuration HookMsg hookMsgs)

/-- The storage of the contract, contracts/voting/dao-voting-token-staked/src/state.rs:11-56, without the
denomination and the issuer address, which stay fixed. -/
structure State where
  dao : Addr
  unstakingDuration : Option Duration
  staked : Snap Addr Nat
  stakedTotal : Snap Unit Nat
  claims : Claims
  threshold : Option ActiveThreshold
  hooks : Hooks.HookList
  deriving DecidableEq, Repr

/-- `MAX_CLAIMS`, contracts/voting/dao-voting-token-staked/src/state.rs:42. -/
def MAX_CLAIMS : Nat := 100

/-- `ExecuteMsg`, contracts/voting/dao-voting-token-staked/src/msg.rs:39-58, without `Stake`. -/
inductive Msg where
  | unstake (amount : Nat)
  | updateConfig (duration : Option Duration)
  | claim
  | updateActiveThreshold (t : Option ActiveThreshold)
  | addHook (a : Addr)
  | removeHook (a : Addr)
  deriving DecidableEq, Repr

/-- What a call sends: coins, and messages to the hooks. -/
structure Out where
  pay : Option (Addr × Nat) := none
  hooks : List HookMsg := []
  deriving DecidableEq, Repr

/-- `STAKED_TOTAL`, `unwrap_or_default`. -/
def State.total (s : State) : Nat := (s.stakedTotal.get ()).getD 0

/-- `STAKED_BALANCES` of an address, `unwrap_or_default`. -/
def State.stakedOf (s : State) (a : Addr) : Nat := (s.staked.get a).getD 0

/-- The percentage check of `instantiate`, contracts/voting/dao-voting-token-staked/src/contract.rs:79-88. -/
def checkPercentage : Option ActiveThreshold → Res Unit
  | some (.percentage p) => assertValidPercentage p
  | _ => .ok ()

/-- The absolute count check, contracts/voting/dao-voting-token-staked/src/contract.rs:92-96, 605-612
and 760-767. -/
def checkCount (t : Option ActiveThreshold) (supply : Nat) : Res Unit :=
  match t with
  | some (.absolute n) => assertValidCount n supply
  | _ => .ok ()

/-- `instantiate`, contracts/voting/dao-voting-token-staked/src/contract.rs:62-159, up to the choice of
the token. -/
def instantiate (dao : Addr) (d : Option Duration) (t : Option ActiveThreshold) : Res State := do
  validateDuration d
  checkPercentage t
  .ok { dao := dao, unstakingDuration := d, staked := Snap.empty, stakedTotal := Snap.empty, claims := [],
        threshold := t, hooks := none }

/-- `fold(Uint128::zero(), +)`. -/
def sumAmounts : List (Addr × Nat) → Nat → Res Nat
  | [], acc => .ok acc
  | (_, n) :: rest, acc => do
    let acc' ← add128 acc n
    sumAmounts rest acc'

/-- The coins minted to the DAO, contracts/voting/dao-voting-token-staked/src/contract.rs:688-701. -/
def daoMint (dao : Addr) : Option Nat → List (Addr × Nat)
  | some n => if n ≠ 0 then [(dao, n)] else []
  | none => []

/-- `reply` for a new token, contracts/voting/dao-voting-token-staked/src/contract.rs:575-736: the list of
coins the issuer mints. -/
def replyNew (s : State) (balances : List (Addr × Nat)) (daoBalance : Option Nat) :
    Res (List (Addr × Nat)) := do
  let supply ← sumAmounts balances 0
  let _ ← add128 supply (daoBalance.getD 0)
  checkCount s.threshold supply
  require (decide (supply ≠ 0)) .invalid
  .ok (balances ++ daoMint s.dao daoBalance)

/-- `reply` for a token factory, contracts/voting/dao-voting-token-staked/src/contract.rs:737-797: the
checks. -/
def replyFactory (s : State) (supply daoHolds : Nat) : Res Unit := do
  let n ← sub128 supply daoHolds
  checkCount s.threshold n
  require (decide (n ≠ 0)) .invalid

/-- `execute_stake`, contracts/voting/dao-voting-token-staked/src/contract.rs:181-209. -/
def execStake (s : State) (b : Block) (sender : Addr) (amount : Nat) : Res (State × Out) := do
  require (decide (amount ≠ 0)) .invalid
  let x ← add128 (s.stakedOf sender) amount
  let t ← add128 s.total amount
  .ok ({ s with staked := s.staked.save sender x b.height
                stakedTotal := s.stakedTotal.save () t b.height },
       { hooks := hookMsgs s.hooks true sender amount })

/-- The end of `execute_unstake`, contracts/voting/dao-voting-token-staked/src/contract.rs:246-281: pay at
once or create a claim. -/
def release (s : State) (b : Block) (a : Addr) (amount : Nat) (hooks : List HookMsg) :
    Res (State × Out) :=
  match s.unstakingDuration with
  | none => .ok (s, { pay := some (a, amount), hooks := hooks })
  | some d =>
    if (s.claims.of a).length ≥ MAX_CLAIMS then .error (.custom 1)
    else .ok ({ s with claims := s.claims.create a amount (d.after b) }, { hooks := hooks })

/-- `execute_unstake`, contracts/voting/dao-voting-token-staked/src/contract.rs:211-282. -/
def execUnstake (s : State) (b : Block) (sender : Addr) (amount : Nat) : Res (State × Out) := do
  require (decide (amount ≠ 0)) .invalid
  let x ← sub128 (s.stakedOf sender) amount
  let t ← sub128 s.total amount
  release { s with staked := s.staked.save sender x b.height
                   stakedTotal := s.stakedTotal.save () t b.height } b sender amount
    (hookMsgs s.hooks false sender amount)

/-- `execute_claim`, contracts/voting/dao-voting-token-staked/src/contract.rs:305-326. -/
def execClaim (s : State) (b : Block) (sender : Addr) : Res (State × Out) := do
  let (c, n) ← s.claims.claimTokens sender b
  require (decide (n ≠ 0)) .invalid
  .ok ({ s with claims := c }, { pay := some (sender, n) })

/-- The validation in `execute_update_active_threshold`,
contracts/voting/dao-voting-token-staked/src/contract.rs:339-353. -/
def checkThreshold (t : Option ActiveThreshold) (supply : Nat) : Res Unit :=
  match t with
  | some (.percentage p) => assertValidPercentage p
  | some (.absolute n) => assertValidCount n supply
  | none => .ok ()

/-- `execute`, contracts/voting/dao-voting-token-staked/src/contract.rs:162-179, with
`execute_update_config`, `execute_update_active_threshold`, `execute_add_hook` and `execute_remove_hook`,
contract.rs:284-303 and 328-392. `supply` is what the bank answers. -/
def exec (s : State) (b : Block) (supply : Nat) (sender : Addr) : Msg → Res (State × Out)
  | .unstake n => execUnstake s b sender n
  | .claim => execClaim s b sender
  | .updateConfig d => do
    require (decide (sender = s.dao)) .unauthorized
    validateDuration d
    .ok ({ s with unstakingDuration := d }, {})
  | .updateActiveThreshold t => do
    require (decide (sender = s.dao)) .unauthorized
    checkThreshold t supply
    .ok ({ s with threshold := t }, {})
  | .addHook a => do
    require (decide (sender = s.dao)) .unauthorized
    let h ← Hooks.addHook s.hooks a
    .ok ({ s with hooks := h }, {})
  | .removeHook a => do
    require (decide (sender = s.dao)) .unauthorized
    let h ← Hooks.removeHook s.hooks a
    .ok ({ s with hooks := h }, {})

/-- `query_voting_power_at_height`, contracts/voting/dao-voting-token-staked/src/contract.rs:422-434. -/
def powerAt (s : State) (a : Addr) (h : Nat) : Nat := (s.staked.atHeight a h).getD 0

/-- `query_total_power_at_height`, contracts/voting/dao-voting-token-staked/src/contract.rs:436-446. -/
def totalPowerAt (s : State) (h : Nat) : Nat := (s.stakedTotal.atHeight () h).getD 0

/-- `query_is_active`, contracts/voting/dao-voting-token-staked/src/contract.rs:485-545. -/
def active (s : State) (supply : Nat) : Res Bool := isActive s.threshold s.total supply

/-! ## The contract over the bank -/

/-- The contract, its own address, and the bank's ledger of the denomination. -/
structure World where
  c : State
  self : Addr
  ledger : Ledger Addr
  deriving DecidableEq, Repr

/-- Transactions: a call without funds; a stake call with its funds; a plain bank transfer; newly minted
coins; coins burned by their holder. -/
inductive Call where
  | exec (sender : Addr) (m : Msg)
  | stake (sender : Addr) (amount : Nat)
  | transfer (sender to : Addr) (amount : Nat)
  | mint (to : Addr) (amount : Nat)
  | burn (holder : Addr) (amount : Nat)
  deriving DecidableEq, Repr

/-- The contract's bank transfer, if any. -/
def settle (w : World) (c : State) (out : Out) : Res (World × Out) :=
  match out.pay with
  | none => .ok ({ w with c := c }, out)
  | some (a, n) => do
    let l ← w.ledger.move w.self a n
    .ok ({ w with c := c, ledger := l }, out)

/-- One transaction. The contract sends no coins except by the transfers above. The supply fits a
`Uint128`. -/
def step (w : World) (b : Block) : Call → Res (World × Out)
  | .exec sender m => do
    require (decide (sender ≠ w.self)) .unauthorized
    let (c, out) ← exec w.c b (Verif.total w.ledger) sender m
    settle w c out
  | .stake sender amount => do
    require (decide (sender ≠ w.self)) .unauthorized
    let l ← w.ledger.move sender w.self amount
    let (c, out) ← execStake w.c b sender amount
    .ok ({ w with ledger := l, c := c }, out)
  | .transfer sender to amount => do
    require (decide (sender ≠ w.self)) .unauthorized
    let l ← w.ledger.move sender to amount
    .ok ({ w with ledger := l }, {})
  | .mint to amount => do
    require (decide (Verif.total w.ledger + amount < U128)) .overflow
    let l ← w.ledger.credit to amount
    .ok ({ w with ledger := l }, {})
  | .burn holder amount => do
    require (decide (holder ≠ w.self)) .unauthorized
    let l ← w.ledger.debit holder amount
    .ok ({ w with ledger := l }, {})

/-- The issuer's mints. -/
def mintAll : Ledger Addr → List (Addr × Nat) → Res (Ledger Addr)
  | l, [] => .ok l
  | l, (a, n) :: rest => do
    let l' ← l.credit a n
    mintAll l' rest

/-- The three ways to set up the token: an existing one, a new one, one from a factory. -/
inductive Setup (c : State) (ledger : Ledger Addr) : Prop where
  | existing (h : checkCount c.threshold (Verif.total ledger) = .ok ())
  | new (balances mints : List (Addr × Nat)) (daoBalance : Option Nat)
      (h : replyNew c balances daoBalance = .ok mints) (hl : mintAll [] mints = .ok ledger)
  | factory (h : replyFactory c (Verif.total ledger) (getD0 ledger c.dao) = .ok ())

/-- The transition system: any instantiation over any bank ledger whose supply fits. -/
def sys : Sys World Block Call Out where
  init _ w := ∃ dao d t, instantiate dao d t = .ok w.c ∧ Setup w.c w.ledger ∧ Verif.total w.ledger < U128
  block b := b
  step := step

end Verif.TokenStaked
