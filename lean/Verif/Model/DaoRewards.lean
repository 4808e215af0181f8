import Verif.Base.Coins
import Verif.Base.Ownable
import Verif.Base.History
import Verif.Model.ExternalRewards
/-!
# dao-rewards-distributor

Distributions of tokens to the members of a DAO in proportion to their voting power. The voting contracts appear as
the power they report: a query for the height of the current block answers with the power at the beginning of the
block, so a change of power counts from the next block on. The contract learns of changes by hook messages.
-/

namespace Verif.DaoRewards

open ExternalRewards (SCALE mul256 add256 subN to128)

/-- `EmissionRate`, contracts/distribution/dao-rewards-distributor/src/state.rs:44-62. -/
inductive Rate where
  | paused
  | immediate
  | linear (amount : Nat) (duration : Duration) (continuous : Bool)
  deriving DecidableEq, Repr

/-- `Epoch`, contracts/distribution/dao-rewards-distributor/src/state.rs:131-145: `earned` is `total_earned_puvp`, the
scaled reward per unit of voting power, and `updated` is `last_updated_total_earned_puvp`. -/
structure Epoch where
  rate : Rate
  started : Expiration
  ends : Expiration
  earned : Nat
  updated : Expiration
  deriving DecidableEq, Repr

/-- `DistributionState`, contracts/distribution/dao-rewards-distributor/src/state.rs:174-197; its `id` is the key it is
stored under, `hist` is `historical_earned_puvp`. -/
structure Dist where
  token : Token
  epoch : Epoch
  vp : Addr
  hookCaller : Addr
  openFunding : Bool
  funded : Nat
  dest : Addr
  hist : Nat
  deriving DecidableEq, Repr

/-- The storage, contracts/distribution/dao-rewards-distributor/src/state.rs:18-39, and the ownership kept by
cw_ownable. The two maps of a user's `UserRewardState` are kept by distribution and address; a missing entry is read as
zero. -/
structure State where
  ownership : Ownership
  count : Nat
  dists : AMap Nat Dist
  pending : AMap (Nat × Addr) Nat
  accounted : AMap (Nat × Addr) Nat
  hooks : AMap Addr (List Nat)
  deriving DecidableEq, Repr

/-- What a voting contract answers for the height of the current block, `get_total_voting_power_at_block` and
`get_voting_power_at_block`, contracts/distribution/dao-rewards-distributor/src/helpers.rs:13-37. -/
structure Answer where
  total : Nat
  of : Addr → Nat

/-- `Duration::is_zero`, contracts/distribution/dao-rewards-distributor/src/helpers.rs:126-131. -/
def isZero : Duration → Bool
  | .height n => n == 0
  | .time n => n == 0

/-- `Duration::checked_div`, contracts/distribution/dao-rewards-distributor/src/helpers.rs:133-146. -/
def durDiv : Duration → Duration → Res Nat
  | .height n, .height d => if d = 0 then .error .invalid else .ok (n / d)
  | .time n, .time d => if d = 0 then .error .invalid else .ok (n / d)
  | _, _ => .error .invalid

/-- `Expiration::duration_since`, contracts/distribution/dao-rewards-distributor/src/helpers.rs:86-113: whole seconds
for times. -/
def since : Expiration → Expiration → Res Duration
  | .atHeight e, .atHeight s => .ok (.height (if s < e then e - s else 0))
  | .atTime e, .atTime s => .ok (.time (if s < e then e / NANOS - s / NANOS else 0))
  | _, _ => .error .invalid

/-- `validate`, contracts/distribution/dao-rewards-distributor/src/state.rs:66-86. -/
def validate : Rate → Res Unit
  | .linear amount duration _ => do
    require (decide (amount ≠ 0)) .invalid
    require (!isZero duration) .invalid
  | _ => .ok ()

/-- A number of blocks or seconds times the ratio of the funds to the amount of the rate: `Decimal::from_ratio`, which
panics when the amount is zero or the ratio too large, `checked_mul_floor` and the conversion to 64 bits,
contracts/distribution/dao-rewards-distributor/src/state.rs:105-119. -/
def stretch (n funded amount : Nat) : Res Nat := do
  require (decide (amount ≠ 0)) .panic
  require (decide (funded * DEC_ONE / amount < U128)) .panic
  require (decide (n * (funded * DEC_ONE / amount) / DEC_ONE < U64)) .overflow
  .ok (n * (funded * DEC_ONE / amount) / DEC_ONE)

/-- `get_funded_period_duration`, contracts/distribution/dao-rewards-distributor/src/state.rs:92-127, of a linear
rate. -/
def fundedPeriod (funded amount : Nat) : Duration → Res Duration
  | .height h => do
    let n ← stretch h funded amount
    .ok (.height n)
  | .time t => do
    let n ← stretch t funded amount
    .ok (.time n)

/-- The earlier of a block and an end. -/
def capAt (e : Expiration) (b : Block) (other : Expiration) : Expiration :=
  match e with
  | .never => other
  | .atHeight h => .atHeight (min b.height h)
  | .atTime t => .atTime (min b.time t)

/-- `bump_last_updated`, contracts/distribution/dao-rewards-distributor/src/state.rs:155-169. -/
def bump (e : Epoch) (b : Block) : Epoch := { e with updated := capAt e.ends b .never }

/-- `get_latest_reward_distribution_time`, contracts/distribution/dao-rewards-distributor/src/state.rs:220-230. -/
def latest (e : Epoch) (b : Block) : Expiration := capAt e.ends b e.updated

/-- `get_rewards_until`, contracts/distribution/dao-rewards-distributor/src/state.rs:233-254. -/
def rewardsUntil (d : Dist) (x : Expiration) : Res Nat :=
  match d.epoch.rate with
  | .paused => .ok 0
  | .immediate => .ok d.funded
  | .linear amount duration _ =>
    if d.epoch.started = .never then .ok 0
    else do
      let span ← since x d.epoch.started
      let n ← durDiv span duration
      mul128 amount n

/-- `get_total_rewards`, contracts/distribution/dao-rewards-distributor/src/state.rs:258-260. -/
def totalRewards (d : Dist) : Res Nat := rewardsUntil d d.epoch.ends

/-- `get_undistributed_rewards`, contracts/distribution/dao-rewards-distributor/src/state.rs:264-279. -/
def undistributed (d : Dist) (b : Block) : Res Nat := do
  let x ← rewardsUntil d (latest d.epoch b)
  sub128 d.funded x

/-- The reward per unit of voting power of some time, contracts/distribution/dao-rewards-distributor/src/rewards.rs:113-141. -/
def grow (curr amount : Nat) (duration span : Duration) (total : Nat) : Res Nat :=
  if isZero span then .ok curr
  else if total = 0 then .ok curr
  else do
    let n ← durDiv span duration
    let x ← mul256 (amount * n) SCALE
    add256 curr (x / total)

/-- `get_active_total_earned_puvp`, contracts/distribution/dao-rewards-distributor/src/rewards.rs:82-144. -/
def activeEarned (e : Epoch) (b : Block) (total : Nat) : Res Nat :=
  match e.rate with
  | .paused => .ok 0
  | .immediate => .ok e.earned
  | .linear amount duration _ =>
    if latest e b = .never then .ok e.earned
    else do
      let span ← since (latest e b) e.updated
      grow e.earned amount duration span total

/-- `get_accrued_rewards_not_yet_accounted_for`, contracts/distribution/dao-rewards-distributor/src/rewards.rs:148-180. -/
def accrued (power total accounted : Nat) : Res Nat := do
  let f ← subN total accounted
  let n ← mul256 power f
  to128 (n / SCALE)

/-- `update_rewards`, contracts/distribution/dao-rewards-distributor/src/rewards.rs:15-79. -/
def updateRewards (s : State) (b : Block) (v : Addr → Answer) (a : Addr) (id : Nat) : Res State := do
  let d ← orErr (s.dists.get id) .notFound
  let r ← activeEarned d.epoch b (v d.vp).total
  let t ← add256 r d.hist
  let x ← accrued ((v d.vp).of a) t (getD0 s.accounted (id, a))
  let p ← add128 x (getD0 s.pending (id, a))
  .ok { s with
        dists := s.dists.set id { d with epoch := bump { d.epoch with earned := r } b }
        pending := s.pending.set (id, a) p
        accounted := s.accounted.set (id, a) t }

/-- The amount `query_pending_rewards`, contracts/distribution/dao-rewards-distributor/src/contract.rs:633-692, shows for
one distribution. -/
def queryPending (s : State) (b : Block) (v : Addr → Answer) (a : Addr) (id : Nat) : Res Nat := do
  let d ← orErr (s.dists.get id) .notFound
  let r ← activeEarned d.epoch b (v d.vp).total
  let t ← add256 r d.hist
  let x ← accrued ((v d.vp).of a) t (getD0 s.accounted (id, a))
  add128 x (getD0 s.pending (id, a))

/-- `update_immediate_emission_total_earned_puvp`, contracts/distribution/dao-rewards-distributor/src/state.rs:378-412. -/
def addAtOnce (earned total amount : Nat) : Res Nat := do
  require (decide (total ≠ 0)) .invalid
  let x ← mul256 amount SCALE
  add256 earned (x / total)

/-- The end of a new epoch, contracts/distribution/dao-rewards-distributor/src/state.rs:321-340: a height is capped at
the largest 64-bit number. (For times the code panics when nanoseconds exceed 64 bits, which is not modelled.) -/
def newEnd (b : Block) : Duration → Expiration
  | .height h => .atHeight (if b.height + h < U64 then b.height + h else U64 - 1)
  | .time t => .atTime (b.time + t * NANOS)

/-- The current block in the unit of a duration, contracts/distribution/dao-rewards-distributor/src/state.rs:345-348. -/
def nowAs (b : Block) : Duration → Expiration
  | .height _ => .atHeight b.height
  | .time _ => .atTime b.time

/-- The fourth part of `transition_epoch`, contracts/distribution/dao-rewards-distributor/src/state.rs:315-370. -/
def newEpoch (b : Block) (total funded : Nat) : Rate → Res Epoch
  | .paused => .ok { rate := .paused, started := .never, ends := .never, earned := 0, updated := .never }
  | .immediate => do
    let r ← addAtOnce 0 total funded
    .ok { rate := .immediate, started := .never, ends := .never, earned := r, updated := .never }
  | .linear amount duration continuous => do
    let p ← fundedPeriod funded amount duration
    .ok { rate := .linear amount duration continuous, started := nowAs b duration, ends := newEnd b p
          earned := 0, updated := nowAs b duration }

/-- `transition_epoch`, contracts/distribution/dao-rewards-distributor/src/state.rs:282-371. -/
def transition (d : Dist) (b : Block) (total : Nat) (rate : Rate) : Res Dist :=
  if d.epoch.rate = rate then .ok d
  else do
    let r ← activeEarned d.epoch b total
    let hist ← add256 d.hist r
    let x ← rewardsUntil d (latest d.epoch b)
    let funded ← sub128 d.funded x
    let e ← newEpoch b total funded rate
    .ok { d with epoch := e, funded := funded, hist := hist }

/-- The restart of a linear distribution, contracts/distribution/dao-rewards-distributor/src/contract.rs:414-443. -/
def restart (d : Dist) (b : Block) (duration : Duration) (amount hist : Nat) : Dist :=
  { d with
    epoch := { d.epoch with started := nowAs b duration, earned := 0, updated := nowAs b duration }
    funded := amount
    hist := hist }

/-- The first half of `execute_fund_linear`, contracts/distribution/dao-rewards-distributor/src/contract.rs:396-446. -/
def fundLinearStart (d : Dist) (b : Block) (total amount : Nat) (duration : Duration) (continuous : Bool) : Res Dist :=
  if d.funded = 0 then .ok (restart d b duration amount d.hist)
  else if !continuous && d.epoch.ends.isExpired b then do
    let r ← activeEarned d.epoch b total
    let hist ← add256 d.hist r
    .ok (restart d b duration amount hist)
  else do
    let f ← add128 d.funded amount
    .ok { d with funded := f }

/-- `execute_fund_linear`, contracts/distribution/dao-rewards-distributor/src/contract.rs:390-475. -/
def fundLinear (d : Dist) (b : Block) (total amount rateAmount : Nat) (duration : Duration) (continuous : Bool) :
    Res Dist := do
  let d1 ← fundLinearStart d b total amount duration continuous
  let p ← fundedPeriod d1.funded rateAmount duration
  let ends ← d1.epoch.started.add p
  let d2 : Dist := { d1 with epoch := { d1.epoch with ends := ends } }
  if continuous && decide (d.funded ≠ 0) && d.epoch.ends.isExpired b then do
    let r ← activeEarned d2.epoch b total
    .ok { d2 with epoch := bump { d2.epoch with earned := r } b }
  else .ok d2

/-- `execute_fund`, contracts/distribution/dao-rewards-distributor/src/contract.rs:325-342, after the check of the
sender, with `execute_fund_paused` (345-359) and `execute_fund_immediate` (362-382). -/
def fundDist (d : Dist) (b : Block) (total amount : Nat) : Res Dist :=
  match d.epoch.rate with
  | .paused => do
    let f ← add128 d.funded amount
    .ok { d with funded := f }
  | .immediate => do
    let f ← add128 d.funded amount
    let r ← addAtOnce d.epoch.earned total amount
    .ok { d with funded := f, epoch := { d.epoch with earned := r } }
  | .linear rateAmount duration continuous => fundLinear d b total amount rateAmount duration continuous

/-- `execute_fund`, contracts/distribution/dao-rewards-distributor/src/contract.rs:325-342. -/
def execFund (s : State) (b : Block) (v : Addr → Answer) (sender : Addr) (id : Nat) (d : Dist) (amount : Nat) :
    Res State := do
  require (d.openFunding || decide (s.ownership.owner = some sender)) .unauthorized
  let d ← fundDist d b (v d.vp).total amount
  .ok { s with dists := s.dists.set id d }

/-- The end `execute_withdraw` sets, contracts/distribution/dao-rewards-distributor/src/contract.rs:551-555. -/
def endNow (b : Block) : Expiration → Expiration
  | .never => .never
  | .atHeight _ => .atHeight b.height
  | .atTime _ => .atTime b.time

/-- `execute_withdraw`, contracts/distribution/dao-rewards-distributor/src/contract.rs:529-580, after the check of the
sender. -/
def withdrawDist (d : Dist) (b : Block) : Res (Dist × Nat) := do
  require (!d.epoch.ends.isExpired b) .invalid
  let d1 : Dist := { d with epoch := { d.epoch with ends := endNow b d.epoch.started } }
  let x ← totalRewards d1
  let back ← sub128 d1.funded x
  .ok ({ d1 with funded := x }, back)

/-- `subscribe_distribution_to_hook`, contracts/distribution/dao-rewards-distributor/src/hooks.rs:8-19. -/
def subscribe (m : AMap Addr (List Nat)) (id : Nat) (hook : Addr) : AMap Addr (List Nat) :=
  m.set hook ((m.get hook).getD [] ++ [id])

/-- `unsubscribe_distribution_from_hook`, contracts/distribution/dao-rewards-distributor/src/hooks.rs:22-40. -/
def unsubscribe (m : AMap Addr (List Nat)) (id : Nat) (hook : Addr) : AMap Addr (List Nat) :=
  if ((m.get hook).getD []).filter (fun i => decide (i ≠ id)) = [] then m.erase hook
  else m.set hook (((m.get hook).getD []).filter (fun i => decide (i ≠ id)))

/-- The inner loop of the hooks: one member, all distributions. -/
def updateIds (b : Block) (v : Addr → Answer) (a : Addr) : List Nat → State → Res State
  | [], s => .ok s
  | id :: ids, s => do
    let s ← updateRewards s b v a id
    updateIds b v a ids s

/-- The outer loop of the hooks: all members. -/
def updateMembers (b : Block) (v : Addr → Answer) (ids : List Nat) : List Addr → State → Res State
  | [], s => .ok s
  | a :: as, s => do
    let s ← updateIds b v a ids s
    updateMembers b v ids as s

/-- The three hook messages, contracts/distribution/dao-rewards-distributor/src/hooks.rs:56-140: `execute_stake_changed`
and `execute_nft_stake_changed` name one address, `execute_membership_changed` a list. -/
def execHook (s : State) (b : Block) (v : Addr → Answer) (sender : Addr) (members : List Addr) : Res State := do
  let ids ← orErr (s.hooks.get sender) .unauthorized
  updateMembers b v ids members s

/-- `execute_claim`, contracts/distribution/dao-rewards-distributor/src/contract.rs:477-522. -/
def execClaim (s : State) (b : Block) (v : Addr → Answer) (sender : Addr) (id : Nat) : Res (State × List Pay) := do
  let s ← updateRewards s b v sender id
  let d ← orErr (s.dists.get id) .notFound
  require (decide (getD0 s.pending (id, sender) ≠ 0)) .invalid
  .ok ({ s with pending := s.pending.set (id, sender) 0 }, [⟨sender, d.token, getD0 s.pending (id, sender)⟩])

/-- `execute_withdraw`, contracts/distribution/dao-rewards-distributor/src/contract.rs:529-580. -/
def execWithdraw (s : State) (b : Block) (sender : Addr) (id : Nat) : Res (State × List Pay) := do
  s.ownership.assertOwner sender
  let d ← orErr (s.dists.get id) .notFound
  let r ← withdrawDist d b
  .ok ({ s with dists := s.dists.set id r.1 }, [⟨d.dest, d.token, r.2⟩])

/-- The change of the rate in `execute_update`. -/
def updateRate (d : Dist) (b : Block) (total : Nat) : Option Rate → Res Dist
  | none => .ok d
  | some rate => do
    validate rate
    transition d b total rate

/-- The change of the hook caller in `execute_update`. -/
def updateHook (s : State) (id : Nat) (d : Dist) : Option Addr → State × Dist
  | none => (s, d)
  | some h => ({ s with hooks := subscribe (unsubscribe s.hooks id d.hookCaller) id h }, { d with hookCaller := h })

/-- `execute_update`, contracts/distribution/dao-rewards-distributor/src/contract.rs:239-294. That the new voting contract
answers queries is not modelled. -/
def execUpdate (s : State) (b : Block) (v : Addr → Answer) (sender : Addr) (id : Nat) (rate : Option Rate)
    (vp hook : Option Addr) (openFunding : Option Bool) (dest : Option Addr) : Res State := do
  s.ownership.assertOwner sender
  let d ← orErr (s.dists.get id) .notFound
  let d ← updateRate d b (v d.vp).total rate
  let d : Dist := { d with vp := vp.getD d.vp }
  let r := updateHook s id d hook
  let d : Dist := { r.2 with openFunding := openFunding.getD r.2.openFunding, dest := dest.getD r.2.dest }
  .ok { r.1 with dists := r.1.dists.set id d }

/-- `cw_utils::must_pay`: one coin, of this denomination, not zero. -/
def mustPay (coins : List (Nat × Nat)) (denom : Nat) : Res Nat :=
  match coins with
  | [(d, n)] => if d = denom ∧ n ≠ 0 then .ok n else .error .invalid
  | _ => .error .invalid

/-- The native funds of a message must be of the distribution's denomination. -/
def nativeFunds (t : Token) (coins : List (Nat × Nat)) : Res Nat :=
  match t with
  | .native d => mustPay coins d
  | .cw20 _ => .error .invalid

/-- `execute_create`, contracts/distribution/dao-rewards-distributor/src/contract.rs:156-235. -/
def execCreate (s : State) (b : Block) (v : Addr → Answer) (sender : Addr) (coins : List (Nat × Nat)) (token : Token)
    (rate : Rate) (vp hook : Addr) (openFunding : Option Bool) (dest : Option Addr) : Res State := do
  s.ownership.assertOwner sender
  let id ← add64 s.count 1
  validate rate
  require (decide (s.dists.get id = none)) .invalid
  let d : Dist :=
    { token := token
      epoch := { rate := rate, started := .never, ends := .never, earned := 0, updated := .never }
      vp := vp, hookCaller := hook, openFunding := openFunding.getD true, funded := 0
      dest := dest.getD sender, hist := 0 }
  let s1 : State := { s with count := id, dists := s.dists.set id d, hooks := subscribe s.hooks id hook }
  if coins = [] then .ok s1
  else do
    let n ← nativeFunds token coins
    execFund s1 b v sender id d n

/-- `ExecuteMsg`, contracts/distribution/dao-rewards-distributor/src/msg.rs:25-63, but for `Receive`. `hook` stands for
the three hook messages; `fund none` is `FundLatest`. -/
inductive Msg where
  | hook (members : List Addr)
  | updateOwnership (x : OwnerAction)
  | create (token : Token) (rate : Rate) (vp hook : Addr) (openFunding : Option Bool) (dest : Option Addr)
  | update (id : Nat) (rate : Option Rate) (vp hook : Option Addr) (openFunding : Option Bool) (dest : Option Addr)
  | fund (id : Option Nat)
  | claim (id : Nat)
  | withdraw (id : Nat)
  deriving DecidableEq, Repr

/-- `execute_fund_native`, contracts/distribution/dao-rewards-distributor/src/contract.rs:305-323, and
`execute_fund_latest_native` (296-303). -/
def execFundNative (s : State) (b : Block) (v : Addr → Answer) (sender : Addr) (coins : List (Nat × Nat))
    (id : Option Nat) : Res State := do
  let d ← orErr (s.dists.get (id.getD s.count)) .notFound
  let n ← nativeFunds d.token coins
  execFund s b v sender (id.getD s.count) d n

/-- `execute_receive_cw20`, contracts/distribution/dao-rewards-distributor/src/contract.rs:97-151. -/
def execReceive (s : State) (b : Block) (v : Addr → Answer) (token sender : Addr) (amount : Nat) (id : Option Nat) :
    Res State := do
  let d ← orErr (s.dists.get (id.getD s.count)) .notFound
  require (decide (d.token = .cw20 token)) .invalid
  execFund s b v sender (id.getD s.count) d amount

/-- `execute`, contracts/distribution/dao-rewards-distributor/src/contract.rs:59-95. -/
def exec (s : State) (b : Block) (v : Addr → Answer) (sender : Addr) (coins : List (Nat × Nat)) :
    Msg → Res (State × List Pay)
  | .hook members => do
    let s ← execHook s b v sender members
    .ok (s, [])
  | .updateOwnership x => do
    require (decide (coins = [])) .invalid
    let o ← s.ownership.update b sender x
    .ok ({ s with ownership := o }, [])
  | .create token rate vp hook o dest => do
    let s ← execCreate s b v sender coins token rate vp hook o dest
    .ok (s, [])
  | .update id rate vp hook o dest => do
    require (decide (coins = [])) .invalid
    let s ← execUpdate s b v sender id rate vp hook o dest
    .ok (s, [])
  | .fund id => do
    let s ← execFundNative s b v sender coins id
    .ok (s, [])
  | .claim id => do
    require (decide (coins = [])) .invalid
    execClaim s b v sender id
  | .withdraw id => do
    require (decide (coins = [])) .invalid
    execWithdraw s b sender id

/-- A voting contract: the latest power of everybody, when it last changed, and what it was at the beginning of that
block. -/
structure Votes where
  cur : AMap Addr Nat
  start : AMap Addr Nat
  since : Nat
  deriving DecidableEq, Repr

/-- The powers at the beginning of the block of a height. -/
def Votes.atHeight (v : Votes) (h : Nat) : AMap Addr Nat := if v.since < h then v.cur else v.start

/-- Set the powers of some addresses in the block of a height. -/
def Votes.change (v : Votes) (h : Nat) (diffs : List (Addr × Nat)) : Votes :=
  { cur := diffs.foldl (fun m p => AMap.set m p.1 p.2) v.cur, start := v.atHeight h, since := h }

/-- The contract, its address, all balances, the voting contracts by address and the block of the last transaction. -/
structure World where
  c : State
  me : Addr
  bal : Balances
  votes : AMap Addr Votes
  now : Block
  deriving DecidableEq, Repr

/-- The voting contract at an address. -/
def World.vote (w : World) (a : Addr) : Votes := (w.votes.get a).getD { cur := [], start := [], since := 0 }

/-- What the voting contracts answer in a block. -/
def World.answers (w : World) (b : Block) (vp : Addr) : Answer :=
  { total := total ((w.vote vp).atHeight b.height), of := fun a => getD0 ((w.vote vp).atHeight b.height) a }

/-- Transactions: a message to the contract; a cw20 `Send` of tokens that funds a distribution; a change of the powers
of a voting contract, which the callers `via` announce with hook messages; any other transfer. -/
inductive Call where
  | exec (sender : Addr) (coins : List (Nat × Nat)) (m : Msg)
  | send (token sender : Addr) (amount : Nat) (id : Option Nat)
  | change (vp : Addr) (diffs : List (Addr × Nat)) (via : List Addr)
  | transfer (token : Token) (sender to : Addr) (amount : Nat)
  deriving DecidableEq, Repr

/-- The announcements of a change, one after the other. -/
def announce (b : Block) (v : Addr → Answer) (members : List Addr) : List Addr → State → Res State
  | [], s => .ok s
  | h :: hs, s => do
    let s ← execHook s b v h members
    announce b v members hs s

/-- One transaction. Transactions at one height are in one block, so they see one time, and heights have 64 bits. -/
def step (w : World) (b : Block) (call : Call) : Res (World × List Pay) := do
  require (decide (w.now.height < b.height ∨ w.now = b)) .invalid
  require (decide (b.height < U64)) .invalid
  match call with
  | .exec a coins m => do
    require (decide (a ≠ w.me)) .unauthorized
    let l ← pullCoins w.me a coins w.bal
    let r ← exec w.c b (w.answers b) a coins m
    let l ← payAll w.me r.2 l
    .ok ({ w with c := r.1, bal := l, now := b }, r.2)
  | .send t a n id => do
    require (decide (a ≠ w.me)) .unauthorized
    let l ← w.bal.move (.cw20 t, a) (.cw20 t, w.me) n
    let c ← execReceive w.c b (w.answers b) t a n id
    .ok ({ w with c := c, bal := l, now := b }, [])
  | .change vp diffs via => do
    require (decide (diffs ≠ [])) .invalid
    let w1 : World := { w with votes := w.votes.set vp ((w.vote vp).change b.height diffs), now := b }
    let c ← announce b (w1.answers b) (diffs.map Prod.fst) via w1.c
    .ok ({ w1 with c := c }, [])
  | .transfer t a to n => do
    require (decide (a ≠ w.me)) .unauthorized
    let l ← w.bal.move (t, a) (t, to) n
    .ok ({ w with bal := l, now := b }, [])

/-- Histories of one contract, from its instantiation, contracts/distribution/dao-rewards-distributor/src/contract.rs:35-57. -/
def sys : Sys World Block Call (List Pay) where
  init b w := w.now = b ∧
    w.c = { ownership := w.c.ownership, count := 0, dists := [], pending := [], accounted := [], hooks := [] } ∧
    ∀ a, AMap.WF (w.vote a).cur ∧ AMap.WF (w.vote a).start ∧ (w.vote a).since ≤ b.height
  block := id
  step := step

end Verif.DaoRewards
