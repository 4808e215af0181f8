import Verif.Model.Cw20Stake
import Verif.Model.ExternalRewards
import Verif.Model.RewardDistributor
import Verif.Model.DaoCore
/-!
# Upgrades from version 1: the staking contracts and the core contract

`migrate` of cw20-stake, cw20-stake-external-rewards, cw20-stake-reward-distributor and dao-dao-core. Version 1 kept
the settings under the key `config`, with the owner in them; version 2 keeps them under `config_v2` and the owner in
cw-ownable. Everything else has the same keys and form in both versions. The old settings stay in storage.

Simplifications: the chain decides who may migrate a contract, this is not modelled; a version is a number; the manager
that version 1 had beside the owner is left out, version 2 does not read it. Before the first upgrade the new code is not
there, so nothing can be called; what version 1 did is not modelled.
-/

namespace Verif.StakingUpgrade
open Verif

/-- What differs between the three contracts: the part of the state `W` that `migrate` writes (`K`), how the new code
reads and writes it, and what it makes of the settings of version 1 (`O`). -/
structure Code (O K W : Type) where
  settings : W → K
  put : W → K → W
  convert : O → K

/-- The storage of a contract: version, settings of version 1, settings of version 2 if they are there, and the rest, of
which the settings are not read. -/
structure Storage (O K W : Type) where
  version : Nat
  old : Option O
  new : Option K
  rest : W
  deriving DecidableEq

/-- Calls: what there is in version 2, and the upgrade to code of version `ver`. -/
inductive Call (C : Type) where
  | run (c : C)
  | fromV1 (ver : Nat)

/-- `migrate`, contracts/staking/cw20-stake/src/contract.rs:459-489,
contracts/staking/cw20-stake-external-rewards/src/contract.rs:86-117,
contracts/staking/cw20-stake-reward-distributor/src/contract.rs:232-257. -/
def migrate {O K W : Type} (c : Code O K W) (st : Storage O K W) (ver : Nat) : Res (Storage O K W) := do
  require (decide (st.version ≠ ver)) (.custom 1)
  let o ← orErr st.old .notFound
  .ok { st with version := ver, new := some (c.convert o) }

/-- What the new code sees. -/
def Storage.view {O K W : Type} (c : Code O K W) (st : Storage O K W) : Option W := st.new.map (c.put st.rest)

/-- A call of version 2. -/
def call {O K W E C Out : Type} (c : Code O K W) (M : Sys W E C Out) (st : Storage O K W) (e : E) (x : C) :
    Res (Storage O K W × Option Out) := do
  let w ← orErr (st.view c) .notFound
  let r ← M.step w e x
  .ok ({ st with new := some (c.settings r.1), rest := r.1 }, some r.2)

/-- The contract with its upgrades. First states: whatever storage there is. -/
def sys {O K W E C Out : Type} (c : Code O K W) (M : Sys W E C Out) : Sys (Storage O K W) E (Call C) (Option Out) where
  init _ _ := True
  block := M.block
  step st e
    | .run x => call c M st e x
    | .fromV1 ver => do
      let st' ← migrate c st ver
      .ok (st', none)

/-! ### cw20-stake -/

/-- The `Config` of cw20-stake in version 1, as it is read in contracts/staking/cw20-stake/src/contract.rs:471-483. -/
structure OldStake where
  owner : Option Addr
  token : Addr
  duration : Option Duration
  deriving DecidableEq, Repr

/-- contracts/staking/cw20-stake/src/contract.rs:471-484. -/
def stakeCode : Code OldStake (Cw20Stake.Config × Ownership) Cw20Stake.World where
  settings w := (w.c.config, w.c.ownership)
  put w k := { w with c := { w.c with config := k.1, ownership := k.2 } }
  convert o := (⟨o.token, o.duration⟩, { owner := o.owner })

/-! ### cw20-stake-external-rewards -/

/-- The `Config` of the external rewards in version 1, as it is read in
contracts/staking/cw20-stake-external-rewards/src/contract.rs:100-111. -/
structure OldRewards where
  owner : Option Addr
  staking : Addr
  token : ExternalRewards.Denom
  deriving DecidableEq, Repr

/-- contracts/staking/cw20-stake-external-rewards/src/contract.rs:100-113. -/
def rewardsCode : Code OldRewards (Addr × ExternalRewards.Denom × Ownership) ExternalRewards.World where
  settings w := (w.c.staking, w.c.token, w.c.ownership)
  put w k := { w with c := { w.c with staking := k.1, token := k.2.1, ownership := k.2.2 } }
  convert o := (o.staking, o.token, { owner := o.owner })

/-! ### cw20-stake-reward-distributor -/

/-- The `Config` of the reward distributor in version 1, as it is read in
contracts/staking/cw20-stake-reward-distributor/src/contract.rs:247-252. -/
structure OldDistributor where
  owner : Addr
  staking : Addr
  rate : Nat
  token : Addr
  deriving DecidableEq, Repr

/-- contracts/staking/cw20-stake-reward-distributor/src/contract.rs:247-254. -/
def distributorCode : Code OldDistributor (Addr × Nat × Addr × Ownership) RewardDistributor.World where
  settings w := (w.c.staking, w.c.rate, w.c.token, w.c.ownership)
  put w k := { w with c := { w.c with staking := k.1, rate := k.2.1, token := k.2.2.1, ownership := k.2.2.2 } }
  convert o := (o.staking, o.rate, o.token, { owner := some o.owner })

/-! ### dao-dao-core -/

/-- The DAO with what version 1 left in its storage: the keys of its proposal modules, ascending, and its settings. -/
structure Dao where
  version : Nat
  keys : List Addr
  oldConfig : Option DaoCore.Config
  world : DaoCore.World

/-- What a transaction meets; `texts` puts the name, description and image of version 1 together with the URI of the
message (`DaoCore.Config` keeps them as one number). -/
structure DaoEnv where
  core : DaoCore.Env
  texts : Nat → Option Nat → Nat

/-- Calls: what there is in version 2, and the upgrade. -/
inductive DaoCall where
  | run (c : DaoCore.Call)
  | fromV1 (ver : Nat) (uri : Option Nat) (migrator : Option Nat)

/-- The loop of `migrate`, contracts/dao-dao-core/src/contract.rs:895-908: `idx` modules are done. -/
def saveModules (m : AMap Addr DaoCore.Module) : Nat → List Addr → AMap Addr DaoCore.Module
  | _, [] => m
  | idx, a :: rest => saveModules (m.set a ⟨a, DaoCore.derivePrefix idx, true⟩) (idx + 1) rest

/-- `migrate` with `FromV1`, contracts/dao-dao-core/src/contract.rs:871-950. -/
def daoMigrate (d : Dao) (e : DaoEnv) (ver : Nat) (uri migrator : Option Nat) : Res (Dao × List DaoCore.Sub) := do
  require (decide (d.version ≠ ver)) (.custom 1)
  let c ← orErr d.oldConfig .notFound
  let s : DaoCore.State :=
    { d.world.core with
      modules := saveModules d.world.core.modules 0 d.keys
      active := d.keys.length % DaoCore.U32
      total := d.keys.length % DaoCore.U32
      config := { c with texts := e.texts c.texts uri } }
  let out := DaoCore.migrator migrator
  .ok ({ d with version := ver, world := ⟨s, out ++ d.world.stack⟩ }, out)

/-- A step of the DAO. -/
def daoStep (d : Dao) (e : DaoEnv) : DaoCall → Res (Dao × List DaoCore.Sub)
  | .run c => do
    let r ← DaoCore.step d.world e.core c
    .ok ({ d with world := r.1 }, r.2)
  | .fromV1 ver uri m => daoMigrate d e ver uri m

/-- The DAO with its upgrades. -/
def daoSys : Sys Dao DaoEnv DaoCall (List DaoCore.Sub) where
  init _ _ := True
  block e := e.core.block
  step := daoStep

end Verif.StakingUpgrade
