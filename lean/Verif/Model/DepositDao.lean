import Verif.Model.PreProposeModules
import Verif.Model.WholeDao
import Verif.Model.WholeCondorcet
/-!
# A whole DAO that takes proposals through a pre-propose module

The DAO of `Verif.Model.WholeDao` (core, dao-proposal-single, voting module) with dao-pre-propose-single in front of it.
To the pre-propose module of `Verif.Model.PrePropose` the whole DAO is its proposal module: calls of the core and of the
voting module are further calls of it.
-/

namespace Verif.DepositDao
open Verif Verif.Voting
open Verif.PrePropose (PropModule SinglePayload singleCompleted)
open Verif.WholeDao (VotingModule)
open Verif.WholeCondorcet (Now)

variable {S E C O : Type}

/-- The whole DAO as the proposal module of a pre-propose module. Proposals and completion hooks are those of
dao-proposal-single, see `PrePropose.single`. -/
@[reducible] def whole (V : VotingModule S E C O) (decode : Nat → DaoCore.CosmosMsg) : PropModule where
  St := WholeDao.World S
  Env := WholeDao.Env
  Call := WholeDao.Call E C
  Payload := SinglePayload
  init := WholeDao.Init V
  block e := e.block
  sender e := e.sender
  calledBy e a := { e with sender := a }
  step w e c := do
    let (w', o) ← WholeDao.step V decode w e c
    .ok (w', ⟨o.prop.bind (·.newId), (o.prop.map (fun o => singleCompleted o.msgs)).getD []⟩)
  propose a p := .prop (.propose (some a) p.content p.msgs p.vote p.sizeOk)
  outside c := match c with
    | .prop c => decide (c ≠ .replyFailedPreProposeHook)
    | _ => true
  hookFailed w := do
    let (p, _) ← Single.replyPreProposeFailed w.prop
    .ok { w with prop := p }
  count w := w.prop.count
  policy w := w.prop.policy
  statusOf w id := (w.prop.proposals.get id).map (·.status)

/-- The DAO (`mod`), its pre-propose module (`pre`, at address `here`) and all token balances. -/
abbrev World (V : VotingModule S E C O) (decode : Nat → DaoCore.CosmosMsg) := PrePropose.World (whole V decode)

/-- What a transaction sees: what the DAO sees, coins attached, and the voting powers other DAOs would report now. -/
structure Env where
  dao : WholeDao.Env
  funds : List (Nat × Nat)
  power : Addr → Nat

/-- Calls, see `PrePropose.Call`. -/
abbrev Call (V : VotingModule S E C O) (decode : Nat → DaoCore.CosmosMsg) := PrePropose.Call (whole V decode)

/-- What the pre-propose module sees: it asks its DAO for the power of the sender without a height
(packages/dao-pre-propose-base/src/execute.rs:478-490), and the DAO its voting
module (contracts/dao-dao-core/src/contract.rs:719-730). -/
def preEnv {V : VotingModule S E C O} {decode : Nat → DaoCore.CosmosMsg} (N : Now S) (w : World V decode) (e : Env) :
    PrePropose.Env (whole V decode) where
  mod := e.dao
  funds := e.funds
  power := fun a => if WholeDao.Wired w.mod w.pre.dao then N.power w.mod.vote a e.dao.block else e.power a

/-- A step of the DAO with its pre-propose module. -/
def step (V : VotingModule S E C O) (N : Now S) (decode : Nat → DaoCore.CosmosMsg) (w : World V decode) (e : Env)
    (c : Call V decode) : Res (World V decode × PrePropose.Out) :=
  PrePropose.step w (preEnv N w e) c

/-- The proposal module of the DAO has just created this pre-propose module, which asked it for its DAO
(packages/dao-pre-propose-base/src/execute.rs:46-86). -/
structure Fresh {V : VotingModule S E C O} {decode : Nat → DaoCore.CosmosMsg} (w : World V decode) : Prop where
  queue : w.queue = []
  takes : w.takes = []
  notDao : w.pre.dao ≠ w.here
  notModule : w.pre.module ≠ w.here
  module : w.pre.module = w.mod.propAddr
  asked : w.pre.dao = w.mod.prop.config.dao
  dao : w.mod.prop.config.dao = w.mod.core.core.me
  made : ∃ c, PrePropose.instantiate w.pre.module w.pre.dao c = .ok w.pre

/-- The system. The DAO may have a history before the pre-propose module was made. -/
def sys (V : VotingModule S E C O) (N : Now S) (decode : Nat → DaoCore.CosmosMsg) :
    Sys (World V decode) Env (Call V decode) PrePropose.Out where
  init b w := (∃ l, (WholeDao.sys V decode).Reach w.mod b l) ∧ Fresh w
  block e := e.dao.block
  step := step V N decode

/-- An event of a history. -/
abbrev Event (V : VotingModule S E C O) (decode : Nat → DaoCore.CosmosMsg) :=
  Ev (World V decode) Env (Call V decode) PrePropose.Out

end Verif.DepositDao
