import Verif.Model.Migrator
import Verif.Spec.SingleUpgrade
import Verif.Spec.DaoCore
/-!
# Specification vocabulary for the upgrade of a whole DAO
-/

namespace Verif.Spec.Migrator
open Verif Verif.Voting Verif.SingleUpgrade Verif.Spec.SingleUpgrade Verif.Migrator

/-- The code ids of version 1 are four different ones. -/
def Different (c : CodeIds) : Prop :=
  c.single ≠ c.cw4 ∧ c.single ≠ c.stake ∧ c.single ≠ c.cw20Voting ∧ c.cw4 ≠ c.stake ∧ c.cw4 ≠ c.cw20Voting ∧
    c.stake ≠ c.cw20Voting

/-- The migrator is a new contract. -/
structure New (w : World) (e : Env) : Prop where
  fresh : w.code.get e.migrator = none
  notKey : e.migrator ∉ w.keys
  notMe : e.migrator ≠ w.core.me
  notAdmin : e.migrator ≠ w.core.admin

/-- A DAO as version 1 leaves it: its modules have different addresses, proposals different ids, and nothing is stored
where version 2 stores its proposals. -/
structure OldDao (w : World) : Prop where
  keys : w.keys.Nodup
  few : w.keys.length < DaoCore.U32
  proposals : ∀ a st, w.storages.get a = some st → st.v1Proposals.WF ∧ st.proposals = []
  subDaos : w.core.subDaos = []

/-- A proposal module has kept everything and has the settings asked for. -/
structure ModuleKept (st : Storage) (x : ProposalParams) (pre : Addr) (s : Single.State) : Prop where
  proposals : ∀ id v, st.v1Proposals.get id = some v → ∃ p, s.proposals.get id = some p ∧ SameProposal v p
  nothingElse : ∀ id, st.v1Proposals.get id = none → s.proposals.get id = st.proposals.get id
  ballots : s.ballots = st.ballots
  count : s.count = st.count
  hooks : s.proposalHooks = st.proposalHooks ∧ s.voteHooks = st.voteHooks
  config : ∃ c, st.v1Config = some c ∧ SameConfig c s.config
  settings : s.config.closeOnExecutionFailure = x.close ∧ s.config.veto = x.veto
  policy : s.policy = if x.info = .moduleMayPropose then .module pre else .anyone

/-- A proposal module runs the new code and has kept everything. -/
structure ModuleUpgraded (w : World) (e : Env) (p : Params) (w' : World) (a : Addr) : Prop where
  code : w.code.get a = some p.v1.single ∧ w'.code.get a = some p.v2.single
  kept : ∃ x st st' s, (a, x) ∈ p.proposals ∧ w.storages.get a = some st ∧ w'.storages.get a = some st' ∧
    st'.view = some s ∧ ModuleKept st x (e.preAddr a) s

/-- The voting module `v` runs the new code, and so does its staking contract if it has one. -/
def VotingUpgraded (w : World) (p : Params) (w' : World) (v : Addr) : Prop :=
  (w.code.get v = some p.v1.cw4 ∧ w'.code.get v = some p.v2.cw4) ∨
    (w.code.get v = some p.v1.cw20Voting ∧ w'.code.get v = some p.v2.cw20Voting ∧ p.confirm = some true ∧
      ∃ s, w.staking = some s ∧ w.code.get s = some p.v1.stake ∧ w'.code.get s = some p.v2.stake)

/-- The staking contract of a voting module that has one. -/
def IsStaking (w : World) (p : Params) (v a : Addr) : Prop :=
  w.code.get v = some p.v1.cw20Voting ∧ w.staking = some a

/-- The whole DAO has been upgraded, and nothing else has happened. -/
structure Upgraded (w : World) (e : Env) (p : Params) (w' : World) : Prop where
  named : ∀ a, a ∈ p.proposals.map Prod.fst ↔ a ∈ w.keys
  modules : ∀ a ∈ w.keys, ModuleUpgraded w e p w' a
  voting : ∃ v, w.core.voting = some v ∧ VotingUpgraded w p w' v ∧
    ∀ a, a ∉ w.keys → a ≠ v → ¬ IsStaking w p v a → w'.code.get a = w.code.get a
  others : ∀ a, a ∉ w.keys → w'.storages.get a = w.storages.get a
  enabled : ∀ a, Spec.DaoCore.Enabled w'.core a ↔ a ∈ w.keys
  listed : ∀ a, (w'.core.modules.get a).isSome = true ↔ a ∈ w.keys ∨ a = e.migrator
  counts : w'.core.active = w.keys.length ∧ w'.core.total = w.keys.length + 1
  subDaos : ∀ a, w'.core.subDaos.get a = Spec.DaoCore.lastCharter a p.subDaos
  settings : w'.core = { w.core with modules := w'.core.modules, active := w'.core.active, total := w'.core.total, subDaos := w'.core.subDaos }

/-- The newest proposal of a module of version 1. -/
def Newest (st : Storage) (id : Nat) (v : V1.Proposal) : Prop :=
  st.v1Proposals.get id = some v ∧ ∀ id' v', st.v1Proposals.get id' = some v' → id' ≤ id

/-- The proposal module `a` is one the migrator can upgrade: the DAO may upgrade it, it runs the code of version 1, is
stored as version 1 stores it, has no deposits out, the veto asked for fits, it has a proposal, and for the newest one
the new code finds the status that version 1 reports. The status of every proposal on the first page must be computable. -/
structure ModuleReady (w : World) (e : Env) (p : Params) (a : Addr) (x : ProposalParams) : Prop where
  code : w.code.get a = some p.v1.single
  admin : w.admins.get a = some w.core.me
  new : ∃ ver, e.ver p.v2.single = some ver ∧ ∀ st, w.storages.get a = some st → st.version ≠ ver
  storage : ∃ st c, w.storages.get a = some st ∧ st.v1Config = some c ∧ VetoFits x.veto c ∧
    (∀ y ∈ st.v1Proposals, ¬ DepositOpen y.2) ∧
    (∀ y ∈ reverse st.v1Proposals, ∃ s, (proposalToV2 y.2).currentStatus e.core.block = .ok s) ∧
    ∃ id v, Newest st id v ∧ (proposalToV2 v).currentStatus e.core.block = .ok (statusToV2 (e.v1Status a))

/-- The voting module `v` is one the migrator can upgrade, from code `old` to code `new`. -/
def VotingReady (w : World) (e : Env) (p : Params) (v : Addr) (old new : Nat) : Prop :=
  w.code.get v = some old ∧ w.admins.get v = some w.core.me ∧ (e.ver new).isSome = true ∧
  ((old = p.v1.cw4 ∧ new = p.v2.cw4) ∨
    (old = p.v1.cw20Voting ∧ new = p.v2.cw20Voting ∧ p.confirm = some true ∧ e.stakeOk = true ∧
      (e.ver p.v2.stake).isSome = true ∧
      ∃ s, w.staking = some s ∧ w.admins.get s = some w.core.me ∧ w.code.get s = some p.v1.stake))

/-- Of all that the voting module reports, the migrator compares two numbers: the total power when the newest proposal
of the module with the least address was made, and the power its proposer had then. -/
def SampleAgrees (w : World) (e : Env) (old new : Nat) : Prop :=
  ∃ a st id v, a ∈ w.keys ∧ (∀ b ∈ w.keys, a ≤ b) ∧ w.storages.get a = some st ∧ Newest st id v ∧
    e.total old v.startHeight = e.total new v.startHeight ∧
    e.power old v.proposer v.startHeight = e.power new v.proposer v.startHeight

/-- Everything an upgrade needs. -/
structure Ready (w : World) (e : Env) (ver : Nat) (p : Params) : Prop where
  version : w.coreVersion ≠ ver
  few : w.keys.length + 1 < DaoCore.U32
  notPaused : ¬ Spec.DaoCore.Paused w.core e.core.block
  some_ : w.keys ≠ []
  once : (p.proposals.map Prod.fst).Nodup
  named : ∀ a, a ∈ p.proposals.map Prod.fst ↔ a ∈ w.keys
  modules : ∀ a x, (a, x) ∈ p.proposals → ModuleReady w e p a x
  voting : ∃ v old new, w.core.voting = some v ∧ VotingReady w e p v old new ∧ SampleAgrees w e old new

end Verif.Spec.Migrator
