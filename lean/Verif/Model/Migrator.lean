import Verif.Model.SingleUpgrade
import Verif.Model.DaoCore
import Verif.Model.Paginate
/-!
# Model of `contracts/external/dao-migrator`, and of the upgrade of a whole DAO from version 1

The core contract is upgraded, adds the migrator as a proposal module, and the migrator makes the DAO upgrade its
modules, all in one transaction. Left out: the code of version 1, which is not in /repo; labels and funds. The new code
ids are assumed to be ids of the code in /repo. Nothing but these contracts runs in between, other than the creation of
pre-propose modules.
-/

namespace Verif.Migrator
open Verif Verif.Voting Verif.SingleUpgrade

/-- `V1CodeIds` and `V2CodeIds`, contracts/external/dao-migrator/src/types.rs:7-42. -/
structure CodeIds where
  single : Nat
  cw4 : Nat
  stake : Nat
  cw20Voting : Nat
  deriving DecidableEq, Repr

/-- `ProposalParams`, contracts/external/dao-migrator/src/types.rs:47-51. -/
structure ProposalParams where
  close : Bool
  info : Single.PreProposeInfo
  veto : Option VetoConfig
  deriving DecidableEq, Repr

/-- `MigrateV1ToV2` with `MigrationParams`, contracts/external/dao-migrator/src/msg.rs:6-12, types.rs:52-63. -/
structure Params where
  subDaos : List (Addr × Option Nat)
  confirm : Option Bool
  proposals : List (Addr × ProposalParams)
  v1 : CodeIds
  v2 : CodeIds
  deriving DecidableEq, Repr

/-- `MigrationMsgs`, contracts/external/dao-migrator/src/types.rs:69-74. -/
inductive Kind where
  | single (p : ProposalParams)
  | cw4
  | cw20Voting
  | cw20Stake
  deriving DecidableEq, Repr

/-- A `WasmMsg::Migrate` for a contract. -/
structure Order where
  contract : Addr
  newCode : Nat
  kind : Kind
  deriving DecidableEq, Repr

/-- What the migrator sees of the chain: code ids, the DAO's voting module and proposal modules, the staking contract of
the voting module. -/
structure View where
  codeOf : Addr → Option Nat
  voting : Option Addr
  staking : Option Addr
  modules : List Addr

/-- The staking contract's part, contracts/external/dao-migrator/src/contract.rs:177-217. -/
def stakingOrder (p : Params) (v : View) : Res Order := do
  require (p.confirm.getD false) (.custom 1)
  let a ← orErr v.staking .invalid
  let code ← orErr (v.codeOf a) .notFound
  require (decide (code = p.v1.stake)) (.custom 2)
  .ok ⟨a, p.v2.stake, .cw20Stake⟩

/-- The voting module's part, contracts/external/dao-migrator/src/contract.rs:124-221. -/
def votingOrders (p : Params) (v : View) : Res (Addr × List Order) := do
  let a ← orErr v.voting .notFound
  let code ← orErr (v.codeOf a) .notFound
  if p.v1.cw4 = code then .ok (a, [⟨a, p.v2.cw4, .cw4⟩])
  else if p.v1.cw20Voting = code then do
    let s ← stakingOrder p v
    .ok (a, [⟨a, p.v2.cw20Voting, .cw20Voting⟩, s])
  else .error (.custom 3)

/-- One proposal module, contracts/external/dao-migrator/src/contract.rs:250-291. -/
def moduleOrder (p : Params) (v : View) (a : Addr) : Res Order := do
  let x ← orErr (p.proposals.find? fun x => decide (x.1 = a)) (.custom 4)
  let code ← orErr (v.codeOf a) .notFound
  require (decide (code = p.v1.single)) (.custom 2)
  .ok ⟨a, p.v2.single, .single x.2⟩

/-- The loop over the proposal modules, contracts/external/dao-migrator/src/contract.rs:242-293. -/
def moduleOrders (p : Params) (v : View) (self_ : Addr) : List Addr → Res (List Order)
  | [] => .ok []
  | a :: rest =>
    if a = self_ then moduleOrders p v self_ rest
    else do
      let o ← moduleOrder p v a
      let os ← moduleOrders p v self_ rest
      .ok (o :: os)

/-- `execute_migration_v1_v2` up to the queries of the state, contracts/external/dao-migrator/src/contract.rs:78-298:
the voting module and the orders for it and its staking contract, the orders for the proposal modules. -/
def plan (core self_ sender : Addr) (p : Params) (v : View) : Res (Addr × List Order × List Order) := do
  require (decide (sender = core)) .unauthorized
  require (decide ((p.proposals.map Prod.fst).Nodup)) (.custom 5)
  let vo ← votingOrders p v
  require (decide (1 ≤ v.modules.length)) .underflow
  require (decide (v.modules.length - 1 = p.proposals.length)) (.custom 6)
  let os ← moduleOrders p v self_ v.modules
  require (!os.isEmpty) (.custom 7)
  .ok (vo.1, vo.2, os)

/-- `TestState`, contracts/external/dao-migrator/src/types.rs:127-133. -/
structure TestState where
  counts : List Nat
  proposals : List Single.Proposal
  total : Nat
  power : Nat
  deriving DecidableEq, Repr

/-- The answer to `ReverseProposals` without a limit, contracts/proposal/dao-proposal-single/src/contract.rs:890-907;
`DEFAULT_LIMIT` is 30. -/
def reverse {V : Type} (m : AMap Nat V) : List (Nat × V) := Paginate.listing m none none 30 none .desc

/-- Each proposal with its current status, contracts/proposal/dao-proposal-single/src/proposal.rs:69-72. -/
def reported (b : Block) : List (Nat × Single.Proposal) → Res (List Single.Proposal)
  | [] => .ok []
  | (_, p) :: rest => do
    let q ← p.updateStatus b
    let qs ← reported b rest
    .ok (q :: qs)

/-- The newest proposal of a module of version 1, contracts/external/dao-migrator/src/utils/state_queries.rs:47-92.
`status` is the status version 1 reports for it. -/
def newestV1 (st : Storage) (status : V1.Status) : Res Single.Proposal :=
  match reverse st.v1Proposals with
  | [] => .error (.custom 8)
  | (_, p) :: _ => .ok (proposalToV2 { p with status := status })

/-- The newest proposal of a module of version 2, contracts/external/dao-migrator/src/utils/state_queries.rs:109-139. -/
def newestV2 (b : Block) (st : Storage) : Res Single.Proposal := do
  let s ← orErr st.view .notFound
  let ps ← reported b (reverse s.proposals)
  orErr ps.head? (.custom 8)

/-- What the transaction meets: the block, the address of the new migrator, those of new pre-propose modules, the version
of the code with an id, the status version 1 reports for the newest proposal of a module, the voting powers and the total
reported by the voting module when it runs a code, whether the staking contract lets itself be upgraded. -/
structure Env where
  core : DaoCore.Env
  migrator : Addr
  preAddr : Addr → Addr
  ver : Nat → Option Nat
  v1Status : Addr → V1.Status
  power : Nat → Addr → Nat → Nat
  total : Nat → Nat → Nat
  stakeOk : Bool

/-- A DAO and its modules. `core` is the core contract's storage (its modules and their numbers are not read before the
upgrade), `keys` the proposal modules as version 1 has stored them, `code` and `admins` what the chain knows
(`code` leaves out the migrator). -/
structure World where
  coreVersion : Nat
  core : DaoCore.State
  keys : List Addr
  code : AMap Addr Nat
  admins : AMap Addr Addr
  storages : AMap Addr Storage
  staking : Option Addr

/-- The newest proposals of the modules, by version 1. -/
def newestsV1 (w : World) (e : Env) : List Addr → Res (List Single.Proposal)
  | [] => .ok []
  | a :: rest => do
    let st ← orErr (w.storages.get a) .notFound
    let p ← newestV1 st (e.v1Status a)
    let ps ← newestsV1 w e rest
    .ok (p :: ps)

/-- The same by version 2. -/
def newestsV2 (w : World) (e : Env) : List Addr → Res (List Single.Proposal)
  | [] => .ok []
  | a :: rest => do
    let st ← orErr (w.storages.get a) .notFound
    let p ← newestV2 e.core.block st
    let ps ← newestsV2 w e rest
    .ok (p :: ps)

/-- `query_proposal_count_v1` and `_v2`, contracts/external/dao-migrator/src/utils/state_queries.rs:9-31. The count is
kept under the same key by both versions. -/
def counts (w : World) : List Addr → Res (List Nat)
  | [] => .ok []
  | a :: rest => do
    let st ← orErr (w.storages.get a) .notFound
    let cs ← counts w rest
    .ok (st.count :: cs)

/-- `query_state_v1` and `query_state_v2` after the proposals have been asked for,
contracts/external/dao-migrator/src/contract.rs:370-423. -/
def testState (w : World) (e : Env) (voting : Addr) (modules : List Addr) (ps : List Single.Proposal) :
    Res TestState := do
  let cs ← counts w modules
  let p ← orErr ps.head? .panic
  let code ← orErr (w.code.get voting) .notFound
  .ok ⟨cs, ps, e.total code p.startHeight, e.power code p.proposer p.startHeight⟩

/-- `query_state_v1`, contracts/external/dao-migrator/src/contract.rs:374-395. -/
def stateV1 (w : World) (e : Env) (voting : Addr) (modules : List Addr) : Res TestState := do
  let ps ← newestsV1 w e modules
  testState w e voting modules ps

/-- `query_state_v2`, contracts/external/dao-migrator/src/contract.rs:397-419. -/
def stateV2 (w : World) (e : Env) (voting : Addr) (modules : List Addr) : Res TestState := do
  let ps ← newestsV2 w e modules
  testState w e voting modules ps

/-- The reply of a proposal module after its pre-propose module has been created, if it has asked for one,
contracts/proposal/dao-proposal-single/src/contract.rs:1088-1096. -/
def preReply (st : Storage) (e : Env) (a : Addr) (p : ProposalParams) : Storage :=
  match p.info with
  | .moduleMayPropose => { st with policy := some (.module (e.preAddr a)) }
  | .anyoneMayPropose => st

/-- The upgrade of one contract by its new code. For voting modules it only writes the version. -/
def applyKind (w : World) (e : Env) (ver : Nat) (o : Order) : Res World :=
  match o.kind with
  | .single p => do
    let st ← orErr (w.storages.get o.contract) .notFound
    let r ← SingleUpgrade.migrate ver st (.fromV1 p.close p.info p.veto)
    .ok { w with storages := w.storages.set o.contract (preReply r.1 e o.contract p) }
  | .cw20Stake => do
    require e.stakeOk .invalid
    .ok w
  | _ => .ok w

/-- `WasmMsg::Migrate` sent by the DAO: the chain lets only the contract's admin do so, to code that exists. -/
def applyOrder (w : World) (e : Env) (o : Order) : Res World := do
  require (decide (w.admins.get o.contract = some w.core.me)) .unauthorized
  let ver ← orErr (e.ver o.newCode) .notFound
  let w ← applyKind w e ver o
  .ok { w with code := w.code.set o.contract o.newCode }

/-- The orders, one after the other. -/
def applyOrders (w : World) (e : Env) : List Order → Res World
  | [] => .ok w
  | o :: rest => do
    let w ← applyOrder w e o
    applyOrders w e rest

/-- The migration message of the core contract, and the addition of the migrator it asks for,
contracts/dao-dao-core/src/contract.rs:871-990: version, modules, then `UpdateProposalModules` and its reply. -/
def coreUpgrade (w : World) (e : Env) (ver : Nat) : Res World := do
  require (decide (w.coreVersion ≠ ver)) (.custom 9)
  let s1 := (DaoCore.migrate w.core w.keys (some 0)).1
  let r ← DaoCore.execute s1 e.core s1.me (.updateProposalModules [0] [])
  let r' ← DaoCore.replyProposal r.1 ⟨e.migrator, []⟩
  .ok { w with coreVersion := ver, core := r'.1, admins := w.admins.set e.migrator w.core.me }

/-- What the migrator sees. -/
def World.view (w : World) : View where
  codeOf a := w.code.get a
  voting := w.core.voting
  staking := w.staking
  modules := Paginate.paginateKeys w.core.modules none none .asc

/-- `execute` and `reply` of the migrator when the core contract calls it, with what the DAO does for it,
contracts/external/dao-migrator/src/contract.rs:78-366. -/
def runMigrator (w : World) (e : Env) (p : Params) : Res World := do
  let (voting, vos, mos) ← plan w.core.me e.migrator w.core.me p w.view
  let modules := mos.map (·.contract)
  let before ← stateV1 w e voting modules
  let h ← DaoCore.execute w.core e.core e.migrator (.executeProposalHook [])
  let w1 ← applyOrders { w with core := h.1 } e (vos ++ mos)
  let u ← DaoCore.execute w1.core e.core w1.core.me (.updateSubDaos p.subDaos [])
  let w2 : World := { w1 with core := u.1 }
  let after ← stateV2 w2 e voting modules
  require (decide (after = before)) (.custom 10)
  let h' ← DaoCore.execute w2.core e.core e.migrator (.executeProposalHook [])
  let d ← DaoCore.execute h'.1 e.core h'.1.me (.updateProposalModules [] [e.migrator])
  .ok { w2 with core := d.1 }

/-- The whole transaction. -/
def upgrade (w : World) (e : Env) (ver : Nat) (p : Params) : Res World := do
  let w1 ← coreUpgrade w e ver
  runMigrator w1 e p

end Verif.Migrator
