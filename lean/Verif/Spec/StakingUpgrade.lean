import Verif.Model.StakingUpgrade
/-!
# Specification: upgrades of the staking contracts and of the core contract

What version 1 has left behind is written with the names of version 2: the state a user of version 1 had is given as a
state of version 2, and the storage is said to hold it.
-/

namespace Verif.Spec.StakingUpgrade
open Verif Verif.StakingUpgrade

/-- The settings and owner version 1 of cw20-stake had are those of `s`; nobody is about to become owner. -/
structure StakeSettings (o : OldStake) (s : Cw20Stake.State) : Prop where
  token : s.config.token = o.token
  duration : s.config.unstakingDuration = o.duration
  owner : s.ownership = { owner := o.owner, pendingOwner := none, pendingExpiry := none }

/-- The storage of version 1 holds what `w` says. -/
structure StakeOld (st : Storage OldStake (Cw20Stake.Config × Ownership) Cw20Stake.World) (w : Cw20Stake.World) :
    Prop where
  settings : ∃ o, st.old = some o ∧ StakeSettings o w.c
  staked : st.rest.c.staked = w.c.staked
  total : st.rest.c.stakedTotal = w.c.stakedTotal
  claims : st.rest.c.claims = w.c.claims
  balance : st.rest.c.balance = w.c.balance
  hooks : st.rest.c.hooks = w.c.hooks
  chain : st.rest.self = w.self ∧ st.rest.ledger = w.ledger
  notYet : st.new = none

/-- The same for the external rewards. -/
structure RewardsSettings (o : OldRewards) (s : ExternalRewards.State) : Prop where
  staking : s.staking = o.staking
  token : s.token = o.token
  owner : s.ownership = { owner := o.owner, pendingOwner := none, pendingExpiry := none }

/-- The storage of version 1 holds what `w` says. -/
structure RewardsOld (st : Storage OldRewards (Addr × ExternalRewards.Denom × Ownership) ExternalRewards.World)
    (w : ExternalRewards.World) : Prop where
  settings : ∃ o, st.old = some o ∧ RewardsSettings o w.c
  period : st.rest.c.finish = w.c.finish ∧ st.rest.c.rate = w.c.rate ∧ st.rest.c.duration = w.c.duration
  sums : st.rest.c.perToken = w.c.perToken ∧ st.rest.c.lastUpdate = w.c.lastUpdate
  users : st.rest.c.pending = w.c.pending ∧ st.rest.c.userPerToken = w.c.userPerToken
  chain : st.rest.self = w.self ∧ st.rest.ledger = w.ledger ∧ st.rest.stakes = w.stakes ∧ st.rest.totals = w.totals
  notYet : st.new = none

/-- The same for the reward distributor. -/
structure DistributorSettings (o : OldDistributor) (s : RewardDistributor.State) : Prop where
  staking : s.staking = o.staking
  rate : s.rate = o.rate
  token : s.token = o.token
  owner : s.ownership = { owner := some o.owner, pendingOwner := none, pendingExpiry := none }

/-- The storage of version 1 holds what `w` says. -/
structure DistributorOld (st : Storage OldDistributor (Addr × Nat × Addr × Ownership) RewardDistributor.World)
    (w : RewardDistributor.World) : Prop where
  settings : ∃ o, st.old = some o ∧ DistributorSettings o w.c
  lastPayment : st.rest.c.lastPayment = w.c.lastPayment
  chain : st.rest.self = w.self ∧ st.rest.ledger = w.ledger
  notYet : st.new = none

/-- A history without upgrades. -/
def NoUpgrade {S E C O : Type} (log : List (Ev S E (Call C) O)) : Prop := ∀ e ∈ log, ∀ ver, e.call ≠ .fromV1 ver

/-- The calls of version 2 in a history of a contract with upgrades, with what they were answered. -/
def calls {S E C O : Type} : List (Ev S E (Call C) (Option O)) → List (E × C × Option O)
  | [] => []
  | e :: log => match e.call with
    | .run c => (e.env, c, e.out) :: calls log
    | .fromV1 _ => calls log

/-- The calls in a history of version 2. -/
def plain {S E C O : Type} (log : List (Ev S E C O)) : List (E × C × Option O) :=
  log.map fun e => (e.env, e.call, some e.out)

/-- A DAO of version 1: settings, at least one proposal module, each with an address of its own that is not the DAO's;
nothing of version 2 is there yet. -/
structure OldDao (d : Dao) : Prop where
  config : d.oldConfig.isSome
  some : d.keys ≠ []
  nodup : d.keys.Nodup
  few : d.keys.length < DaoCore.U32
  other : d.world.core.me ∉ d.keys
  none : d.world.core.modules = []
  lists : AMap.WF d.world.core.items ∧ AMap.WF d.world.core.cw20s ∧ AMap.WF d.world.core.cw721s
  subDaos : d.world.core.subDaos = []
  quiet : d.world.stack = []

end Verif.Spec.StakingUpgrade
