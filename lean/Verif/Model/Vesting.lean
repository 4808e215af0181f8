import Verif.Model.StakeTracker
import Verif.Base.Ownable
/-!
# cw-vesting

The contract (contracts/external/cw-vesting), the curves it uses and the parts of the chain it depends on: its
balance of the vesting denomination and the staking module.
-/

namespace Verif.Vesting

open Verif.StakeTracker (secs)

/-! ## Curves

`wynd_utils` (version 0.4.1, /repo/Cargo.lock:5414) is an external crate whose source is not in /repo. What is assumed
of it is written here. -/

/-- `wynd_utils::Curve`. -/
inductive Curve where
  | constant (y : Nat)
  | saturating (minX minY maxX maxY : Nat)
  | piecewise (steps : List (Nat × Nat))
  deriving DecidableEq, Repr

/-- `wynd_utils::curve::interpolate`: 128-bit arithmetic, the product is formed before the division. -/
def interpolate (p q : Nat × Nat) (x : Nat) : Res Nat :=
  if p.2 < q.2 then do
    let m ← mul128 (q.2 - p.2) (x - p.1)
    .ok (p.2 + m / (q.1 - p.1))
  else do
    let m ← mul128 (p.2 - q.2) (x - p.1)
    .ok (p.2 - m / (q.1 - p.1))

/-- The loop of `wynd_utils::PiecewiseLinear::value`: the pair of points around `x`. -/
def around (x : Nat) : Option (Nat × Nat) → Nat × Nat → List (Nat × Nat) → Option (Nat × Nat) × (Nat × Nat)
  | prev, next, [] => (prev, next)
  | prev, next, p :: rest => if next.1 < x then around x (some next) p rest else (prev, next)

/-- The end of `wynd_utils::PiecewiseLinear::value`. -/
def piecewiseAt (x : Nat) : Option (Nat × Nat) × (Nat × Nat) → Res Nat
  | (some last, next) =>
    if x = last.1 then .ok last.2
    else if next.1 ≤ x then .ok next.2
    else interpolate last next x
  | (none, next) => .ok next.2

/-- `wynd_utils::Curve::value`. -/
def Curve.value : Curve → Nat → Res Nat
  | .constant y, _ => .ok y
  | .saturating x0 y0 x1 y1, x =>
    if x < x0 then .ok y0 else if x1 < x then .ok y1 else interpolate (x0, y0) (x1, y1) x
  | .piecewise [], _ => .error .panic
  | .piecewise (p :: rest), x => piecewiseAt x (around x none p rest)

/-- `wynd_utils::Curve::range`. -/
def Curve.range : Curve → Nat × Nat
  | .constant y => (y, y)
  | .saturating _ y0 _ y1 => (min y0 y1, max y0 y1)
  | .piecewise [] => (0, 0)
  | .piecewise (p :: rest) => (rest.foldl (fun m q => min m q.2) p.2, rest.foldl (fun m q => max m q.2) p.2)

/-- Times strictly ascend from `last`. -/
def ascending : Nat → List (Nat × Nat) → Bool
  | _, [] => true
  | last, p :: rest => decide (last < p.1) && ascending p.1 rest

/-- Values never descend below the previous one. -/
def nondecreasing : Nat → List (Nat × Nat) → Bool
  | _, [] => true
  | last, p :: rest => decide (last ≤ p.2) && nondecreasing p.2 rest

/-- `wynd_utils::Curve::validate_monotonic_increasing`. -/
def Curve.validate : Curve → Bool
  | .constant _ => true
  | .saturating x0 y0 x1 y1 => decide (x0 < x1) && decide (y0 ≤ y1)
  | .piecewise steps => decide (steps ≠ []) && ascending 0 steps && nondecreasing 0 steps

/-- `Schedule`, contracts/external/cw-vesting/src/vesting.rs:54-70. -/
inductive Schedule where
  | saturatingLinear
  | piecewiseLinear (steps : List (Nat × Nat))
  deriving DecidableEq, Repr

/-- The curve of a schedule, contracts/external/cw-vesting/src/vesting.rs:480-490. -/
def Schedule.curve (s : Schedule) (total duration : Nat) : Res Curve :=
  match s with
  | .saturatingLinear => .ok (.saturating 0 0 duration total)
  | .piecewiseLinear steps => if steps.length < 2 then .error .invalid else .ok (.piecewise steps)

/-- `Schedule::into_curve`, contracts/external/cw-vesting/src/vesting.rs:479-500. -/
def Schedule.intoCurve (s : Schedule) (total duration : Nat) : Res Curve := do
  let c ← s.curve total duration
  require c.validate .invalid
  require (decide (c.range = (0, total))) .invalid
  .ok c

/-! ## The vest -/

/-- `Status`, contracts/external/cw-vesting/src/vesting.rs:42-51. -/
inductive Status where
  | unfunded
  | funded
  | canceled (ownerWithdrawable : Nat)
  deriving DecidableEq, Repr

/-- Not canceled, contracts/external/cw-vesting/src/vesting.rs:220. -/
def Status.open : Status → Bool
  | .canceled _ => false
  | _ => true

/-- `CheckedDenom`: a native token, which may be the one the chain stakes, or a cw20 token. -/
inductive Denom where
  | native (bonded : Bool)
  | cw20 (token : Addr)
  deriving DecidableEq, Repr

/-- `Vest`, contracts/external/cw-vesting/src/vesting.rs:21-39. `start` in nanoseconds. Title and description have no
effect and are left out. -/
structure Vest where
  curve : Curve
  start : Nat
  status : Status
  recipient : Addr
  denom : Denom
  claimed : Nat
  slashed : Nat
  deriving DecidableEq, Repr

/-- `Vest::total`, contracts/external/cw-vesting/src/vesting.rs:433-435. -/
def Vest.total (v : Vest) : Nat := v.curve.range.2

/-- `Vest::vested`, contracts/external/cw-vesting/src/vesting.rs:438-441. `t` in seconds. -/
def Vest.vested (v : Vest) (t : Nat) : Res Nat := v.curve.value (t - v.start / 1000000000)

/-- The storage of the contract: contracts/external/cw-vesting/src/state.rs:1-6 and the ownership of cw-ownable. -/
structure State where
  vest : Vest
  staking : StakeTracker.State
  owner : Ownership
  ubs : Nat
  deriving DecidableEq, Repr

/-- `Payment::liquid`, contracts/external/cw-vesting/src/vesting.rs:113-153. Subtractions panic on underflow. -/
def liquid (v : Vest) (staked : Nat) : Res Nat :=
  match v.status with
  | .unfunded => .ok 0
  | .funded => do
    let a ← sub128 v.total v.claimed
    let b ← sub128 a staked
    sub128 b v.slashed
  | .canceled ow => do
    let a ← sub128 v.total v.claimed
    let b ← add128 ow a
    sub128 b staked

/-- `(vesting.vested(t) - vesting.claimed).saturating_sub(vesting.slashed)`,
contracts/external/cw-vesting/src/vesting.rs:165. -/
def claimable (v : Vest) (t : Nat) : Res Nat := do
  let a ← v.vested t
  let b ← sub128 a v.claimed
  .ok (b - v.slashed)

/-- `Payment::distributable`, contracts/external/cw-vesting/src/vesting.rs:157-168. -/
def distributable (s : State) (t : Nat) : Res Nat := do
  let l ← liquid s.vest (StakeTracker.totalStaked s.staking t)
  let c ← claimable s.vest t
  .ok (min l c)

/-- Messages sent by the contract. -/
inductive Pay where
  | toRecipient (amount : Nat)
  | toOwner (owner : Addr) (amount : Nat)
  | delegate (validator amount : Nat)
  | redelegate (src dst amount : Nat)
  | undelegate (validator amount : Nat)
  | distribution
  deriving DecidableEq, Repr

/-- `Payment::distribute`, contracts/external/cw-vesting/src/vesting.rs:174-199. `claimed` is added to before the check,
and may overflow there. -/
def distribute (s : State) (t : Nat) (request : Option Nat) : Res (State × List Pay) := do
  let d ← distributable s t
  let r := request.getD d
  let claimed ← add128 s.vest.claimed r
  require (decide (r ≤ d) && decide (r ≠ 0)) .invalid
  .ok ({ s with vest := { s.vest with claimed := claimed } }, [.toRecipient r])

/-- A transfer that is only sent when the amount is not zero, contracts/external/cw-vesting/src/vesting.rs:253-262. -/
def payOwnerIf (owner : Addr) (a : Nat) : List Pay := if a ≠ 0 then [.toOwner owner a] else []

/-- See `payOwnerIf`. -/
def payRecipientIf (a : Nat) : List Pay := if a ≠ 0 then [.toRecipient a] else []

/-- `Payment::cancel`, contracts/external/cw-vesting/src/vesting.rs:213-269, with `Vest::cancel`,
contracts/external/cw-vesting/src/vesting.rs:444-449. -/
def cancel (s : State) (t : Nat) (owner : Addr) : Res (State × List Pay) := do
  require s.vest.status.open .invalid
  let staked := StakeTracker.totalStaked s.staking t
  let l ← liquid s.vest staked
  let c ← claimable s.vest t
  let toVestee := min c l
  let toOwner := l - toVestee
  let claimed ← add128 s.vest.claimed toVestee
  let v := { s.vest with claimed := claimed }
  let c2 ← claimable v t
  let outstanding ← sub128 staked c2
  let y ← v.vested t
  .ok ({ s with vest := { v with status := .canceled outstanding, curve := .constant y } },
    .distribution :: (payOwnerIf owner toOwner ++ payRecipientIf toVestee))

/-- `Payment::withdraw_canceled_payment`, contracts/external/cw-vesting/src/vesting.rs:271-298. -/
def withdraw (s : State) (t : Nat) (request : Option Nat) (owner : Addr) : Res (State × List Pay) :=
  match s.vest.status with
  | .canceled ow => do
    let l ← liquid s.vest (StakeTracker.totalStaked s.staking t)
    let c := min l ow
    let r := request.getD c
    require (decide (r ≤ c) && decide (r ≠ 0)) .invalid
    .ok ({ s with vest := { s.vest with status := .canceled (ow - r) } }, [.toOwner owner r])
  | _ => .error .invalid

/-- The effect of a slash on the vest, contracts/external/cw-vesting/src/vesting.rs:364-383. -/
def slashVest (v : Vest) (amount : Nat) : Res Vest :=
  match v.status with
  | .unfunded => .error .invalid
  | .funded => do
    let s ← add128 v.slashed amount
    .ok { v with slashed := s }
  | .canceled ow =>
    if ow < amount then do
      let s ← add128 v.slashed (amount - ow)
      .ok { v with status := .canceled 0, slashed := s }
    else .ok { v with status := .canceled (ow - amount) }

/-- `self.staking.on_unbonding_slash` or `on_bonded_slash`, contracts/external/cw-vesting/src/vesting.rs:385-391. -/
def slashStake (s : StakeTracker.State) (v t amount : Nat) (duringUnbonding : Bool) : Res StakeTracker.State :=
  if duringUnbonding then StakeTracker.onUnbondingSlash s t v amount else StakeTracker.onBondedSlash s t v amount

/-- `Payment::register_slash`, contracts/external/cw-vesting/src/vesting.rs:351-393. `t` in seconds. -/
def registerSlash (s : State) (v t amount : Nat) (duringUnbonding : Bool) : Res State := do
  require (decide (amount ≠ 0)) .invalid
  let vest ← slashVest s.vest amount
  let staking ← slashStake s.staking v t amount duringUnbonding
  .ok { s with vest := vest, staking := staking }

/-! ## The contract -/

/-- `InstantiateMsg`, contracts/external/cw-vesting/src/msg.rs:11-61. -/
structure InstMsg where
  owner : Option Addr
  recipient : Addr
  total : Nat
  denom : Denom
  schedule : Schedule
  start : Option Nat
  duration : Nat
  ubs : Nat
  deriving DecidableEq, Repr

/-- The status after instantiation: a native vest is funded at once, contracts/external/cw-vesting/src/contract.rs:56-90. -/
def initialStatus : Denom → Status
  | .native _ => .funded
  | .cw20 _ => .unfunded

/-- `instantiate`, contracts/external/cw-vesting/src/contract.rs:26-97, with `Vest::new`,
contracts/external/cw-vesting/src/vesting.rs:409-430. For a native vest exactly the total must be sent along; this is part
of the initial world below. -/
def instantiate (b : Block) (m : InstMsg) : Res State := do
  let start := m.start.getD b.time
  require (decide (b.time < start + 1000000000 * m.duration)) .invalid
  require (decide (m.total ≠ 0)) .invalid
  require (decide (m.duration ≠ 0)) .invalid
  let c ← m.schedule.intoCurve m.total m.duration
  .ok { vest := { curve := c, start := start, status := initialStatus m.denom, recipient := m.recipient,
                  denom := m.denom, claimed := 0, slashed := 0 }
        staking := StakeTracker.empty
        owner := { owner := m.owner }
        ubs := m.ubs }

/-- `ExecuteMsg`, contracts/external/cw-vesting/src/msg.rs:65-188. -/
inductive Msg where
  | receive (amount : Nat)
  | distribute (amount : Option Nat)
  | cancel
  | withdrawCanceled (amount : Option Nat)
  | updateOwnership (action : OwnerAction)
  | delegate (validator amount : Nat)
  | redelegate (src dst amount : Nat)
  | undelegate (validator amount : Nat)
  | setWithdrawAddress
  | withdrawReward (validator : Nat)
  | registerSlash (validator time amount : Nat) (duringUnbonding : Bool)
  deriving DecidableEq, Repr

/-- What a transaction sees: block, sender, and what the staking module says can be redelegated from the source
validator at once (`none`: no delegation). -/
structure Env where
  block : Block
  sender : Addr
  canRedelegate : Option Nat := none
  deriving DecidableEq, Repr

/-- `execute_receive_cw20`, contracts/external/cw-vesting/src/contract.rs:144-181. The sender is the token contract. -/
def receive (s : State) (e : Env) (amount : Nat) : Res (State × List Pay) := do
  require (decide (s.vest.total = amount)) .invalid
  require (decide (s.vest.denom = .cw20 e.sender)) .invalid
  require (decide (s.vest.status = .unfunded)) .invalid
  .ok ({ s with vest := { s.vest with status := .funded } }, [])

/-- The check that delegating and redelegating share, contracts/external/cw-vesting/src/contract.rs:253-268. -/
def mayStake (s : State) (e : Env) : Res Unit := do
  require (decide (s.vest.status = .funded)) .invalid
  require (decide (e.sender = s.vest.recipient)) .unauthorized
  require (decide (s.vest.denom = .native true)) .invalid

/-- `execute_delegate`, contracts/external/cw-vesting/src/contract.rs:244-282. -/
def delegate (s : State) (e : Env) (v amount : Nat) : Res (State × List Pay) := do
  mayStake s e
  let st ← StakeTracker.onDelegate s.staking (secs e.block) v amount
  .ok ({ s with staking := st }, [.delegate v amount])

/-- `execute_redelegate`, contracts/external/cw-vesting/src/contract.rs:285-349. -/
def redelegate (s : State) (e : Env) (src dst amount : Nat) : Res (State × List Pay) := do
  mayStake s e
  let max ← orErr e.canRedelegate .notFound
  require (decide (amount ≤ max)) .invalid
  let st ← StakeTracker.onRedelegate s.staking (secs e.block) src dst amount
  .ok ({ s with staking := st }, [.redelegate src dst amount])

/-- Who may undelegate, contracts/external/cw-vesting/src/contract.rs:363-375. -/
def mayUnstake (s : State) (e : Env) : Res Unit :=
  match s.vest.status with
  | .unfunded => .error .invalid
  | .funded => require (decide (e.sender = s.vest.recipient)) .unauthorized
  | .canceled _ => .ok ()

/-- `execute_undelegate`, contracts/external/cw-vesting/src/contract.rs:352-392. -/
def undelegate (s : State) (e : Env) (v amount : Nat) : Res (State × List Pay) := do
  mayUnstake s e
  let st ← StakeTracker.onUndelegate s.staking (secs e.block) v amount s.ubs
  .ok ({ s with staking := st }, [.undelegate v amount])

/-- Who may set the address, contracts/external/cw-vesting/src/contract.rs:401-411. -/
def maySetWithdraw (s : State) (e : Env) : Res Unit :=
  match s.vest.status with
  | .canceled _ => s.owner.assertOwner e.sender
  | _ => require (decide (e.sender = s.vest.recipient)) .unauthorized

/-- `execute_set_withdraw_address`, contracts/external/cw-vesting/src/contract.rs:395-425. The address itself only matters
to the distribution module; that it must not be the contract is left out. -/
def setWithdrawAddress (s : State) (e : Env) : Res (State × List Pay) := do
  maySetWithdraw s e
  .ok (s, [.distribution])

/-- The guard of `execute_update_owner`, contracts/external/cw-vesting/src/contract.rs:232-238. -/
def mayUpdateOwner (s : State) (a : OwnerAction) : Bool :=
  match s.vest.status with
  | .canceled ow => !(decide (a = .renounce) && decide (ow ≠ 0))
  | _ => true

/-- `execute`, contracts/external/cw-vesting/src/contract.rs:100-142. -/
def exec (s : State) (e : Env) : Msg → Res (State × List Pay)
  | .receive a => receive s e a
  | .distribute a => distribute s (secs e.block) a
  | .cancel => do
    s.owner.assertOwner e.sender
    cancel s (secs e.block) e.sender
  | .withdrawCanceled a => do
    let o ← orErr s.owner.owner .notFound
    withdraw s (secs e.block) a o
  | .updateOwnership a => do
    require (mayUpdateOwner s a) .invalid
    let o ← s.owner.update e.block e.sender a
    .ok ({ s with owner := o }, [])
  | .delegate v a => delegate s e v a
  | .redelegate src dst a => redelegate s e src dst a
  | .undelegate v a => undelegate s e v a
  | .setWithdrawAddress => setWithdrawAddress s e
  | .withdrawReward _ => .ok (s, [.distribution])
  | .registerSlash v t a u => do
    s.owner.assertOwner e.sender
    require (decide (t ≤ e.block.time)) .invalid
    let s' ← registerSlash s v (t / 1000000000) a u
    .ok (s', [])

/-! ## The chain -/

/-- The contract with its balance and what the staking module holds for it: the bonded tokens and the unbonding
entries with the second at which they are returned. The unbonding period of the chain is taken to be the configured
one and counted in whole seconds. -/
structure World where
  c : State
  bank : Nat
  bonded : Nat
  pending : List (Nat × Nat)
  deriving DecidableEq, Repr

/-- Unbonding entries that have ended are paid back. -/
def mature (w : World) (t : Nat) : World :=
  { w with bank := w.bank + ((w.pending.filter (fun p => decide (p.1 ≤ t))).map Prod.snd).sum
           pending := w.pending.filter (fun p => decide (t < p.1)) }

/-- Carry out one message of the contract. -/
def settle1 (w : World) (t : Nat) : Pay → Res World
  | .toRecipient a => do
    let b ← sub128 w.bank a
    .ok { w with bank := b }
  | .toOwner _ a => do
    let b ← sub128 w.bank a
    .ok { w with bank := b }
  | .delegate _ a => do
    let b ← sub128 w.bank a
    .ok { w with bank := b, bonded := w.bonded + a }
  | .redelegate _ _ a => do
    let _ ← sub128 w.bonded a
    .ok w
  | .undelegate _ a => do
    let b ← sub128 w.bonded a
    .ok { w with bonded := b, pending := (t + w.c.ubs, a) :: w.pending }
  | .distribution => .ok w

/-- Carry out all messages. -/
def settle (t : Nat) : List Pay → World → Res World
  | [], w => .ok w
  | p :: rest, w => do
    let w ← settle1 w t p
    settle t rest w

/-- What can happen: a message to the contract (with a cw20 transfer for `receive`), somebody sending tokens to the
contract, and the chain slashing bonded tokens or an unbonding entry. -/
inductive Call where
  | msg (m : Msg)
  | donate (amount : Nat)
  | slashBonded (amount : Nat)
  | slashUnbonding (index amount : Nat)
  deriving DecidableEq, Repr

/-- The tokens that come with a message. -/
def incoming : Msg → Nat
  | .receive a => a
  | _ => 0

/-- Reduce the `i`-th unbonding entry. -/
def slashEntry : List (Nat × Nat) → Nat → Nat → List (Nat × Nat)
  | [], _, _ => []
  | p :: rest, 0, a => (p.1, p.2 - a) :: rest
  | p :: rest, i + 1, a => p :: slashEntry rest i a

/-- One transaction or one action of the chain. -/
def step (w0 : World) (e : Env) (call : Call) : Res (World × List Pay) := do
  let w := mature w0 (secs e.block)
  match call with
  | .msg m => do
    let r ← exec w.c e m
    let w' ← settle (secs e.block) r.2 { w with c := r.1, bank := w.bank + incoming m }
    .ok (w', r.2)
  | .donate a => .ok ({ w with bank := w.bank + a }, [])
  | .slashBonded a => do
    let b ← sub128 w.bonded a
    .ok ({ w with bonded := b }, [])
  | .slashUnbonding i a => .ok ({ w with pending := slashEntry w.pending i a }, [])

/-- The balance at instantiation: a native vest is paid for in full. -/
def initialBank (m : InstMsg) : Nat :=
  match m.denom with
  | .native _ => m.total
  | .cw20 _ => 0

/-- Histories of one vesting contract. The total is a 128-bit number. -/
def sys : Sys World Env Call (List Pay) where
  init b w := ∃ m, m.total < U128 ∧ instantiate b m = .ok w.c ∧ w.bank = initialBank m ∧ w.bonded = 0 ∧ w.pending = []
  block e := e.block
  step := step

end Verif.Vesting
