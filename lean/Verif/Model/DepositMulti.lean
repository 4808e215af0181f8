import Verif.Model.PreProposeModules
import Verif.Model.WholeMulti
import Verif.Model.WholeCondorcet
/-!
# A whole DAO that takes multiple choice proposals through a pre-propose module

The DAO of `Verif.Model.WholeMulti` (core, dao-proposal-multiple, voting module) with dao-pre-propose-multiple in front
of it, put together as in `Verif.Model.DepositDao`. To the pre-propose module of `Verif.Model.PrePropose` the whole DAO is its proposal module: calls of the core and of the
voting module are further calls of it.
-/

namespace Verif.DepositMulti
open Verif Verif.Voting
open Verif.PrePropose (PropModule MultiplePayload multipleCompleted)
open Verif.WholeDao (VotingModule)
open Verif.WholeCondorcet (Now)

variable {S E C O : Type}

/-- The whole DAO as the proposal module of a pre-propose module. Proposals and completion hooks are those of
dao-proposal-multiple, see `PrePropose.multiple`. -/
@[reducible] def whole (V : VotingModule S E C O) (N : Now S) (decode : Nat → DaoCore.CosmosMsg) : PropModule where
  St := WholeMulti.World S
  Env := WholeMulti.Env
  Call := WholeMulti.Call E C
  Payload := MultiplePayload
  init := WholeMulti.Init V
  block e := e.block
  sender e := e.sender
  calledBy e a := { e with sender := a }
  step w e c := do
    let (w', o) ← WholeMulti.step V N.total decode w e c
    .ok (w', ⟨o.prop.bind (·.newId), (o.prop.map (fun o => multipleCompleted o.msgs)).getD []⟩)
  propose a p := .prop (.propose (some a) p.content p.options p.vote p.sizeOk)
  outside c := match c with
    | .prop c => decide (c ≠ .replyFailedPreProposeHook)
    | _ => true
  hookFailed w := do
    let (p, _) ← Multiple.replyPreProposeFailed w.prop
    .ok { w with prop := p }
  count w := w.prop.count
  policy w := w.prop.policy
  statusOf w id := (w.prop.proposals.get id).map (·.status)

/-- The DAO (`mod`), its pre-propose module (`pre`, at address `here`) and all token balances. -/
abbrev World (V : VotingModule S E C O) (N : Now S) (decode : Nat → DaoCore.CosmosMsg) :=
  PrePropose.World (whole V N decode)

/-- What a transaction sees: what the DAO sees, coins attached, and the voting powers other DAOs would report now. -/
structure Env where
  dao : WholeMulti.Env
  funds : List (Nat × Nat)
  power : Addr → Nat

/-- Calls, see `PrePropose.Call`. -/
abbrev Call (V : VotingModule S E C O) (N : Now S) (decode : Nat → DaoCore.CosmosMsg) :=
  PrePropose.Call (whole V N decode)

/-- What the pre-propose module sees: it asks its DAO for the power of the sender without a height
(packages/dao-pre-propose-base/src/execute.rs:478-490), and the DAO its voting
module (contracts/dao-dao-core/src/contract.rs:719-730). -/
def preEnv {V : VotingModule S E C O} {decode : Nat → DaoCore.CosmosMsg} (N : Now S) (w : World V N decode) (e : Env) :
    PrePropose.Env (whole V N decode) where
  mod := e.dao
  funds := e.funds
  power := fun a => if WholeMulti.Wired w.mod w.pre.dao then N.power w.mod.vote a e.dao.block else e.power a

/-- A step of the DAO with its pre-propose module. -/
def step (V : VotingModule S E C O) (N : Now S) (decode : Nat → DaoCore.CosmosMsg) (w : World V N decode) (e : Env)
    (c : Call V N decode) : Res (World V N decode × PrePropose.Out) :=
  PrePropose.step w (preEnv N w e) c

/-- The proposal module of the DAO has just created this pre-propose module, which asked it for its DAO
(packages/dao-pre-propose-base/src/execute.rs:46-86). -/
structure Fresh {V : VotingModule S E C O} {N : Now S} {decode : Nat → DaoCore.CosmosMsg} (w : World V N decode) : Prop where
  queue : w.queue = []
  takes : w.takes = []
  notDao : w.pre.dao ≠ w.here
  notModule : w.pre.module ≠ w.here
  module : w.pre.module = w.mod.propAddr
  asked : w.pre.dao = w.mod.prop.config.dao
  dao : w.mod.prop.config.dao = w.mod.core.core.me
  made : ∃ c, PrePropose.instantiate w.pre.module w.pre.dao c = .ok w.pre

/-- The system. The DAO may have a history before the pre-propose module was made. -/
def sys (V : VotingModule S E C O) (N : Now S) (decode : Nat → DaoCore.CosmosMsg) :
    Sys (World V N decode) Env (Call V N decode) PrePropose.Out where
  init b w := (∃ l, (WholeMulti.sys V N.total decode).Reach w.mod b l) ∧ Fresh w
  block e := e.dao.block
  step := step V N decode

/-- An event of a history. -/
abbrev Event (V : VotingModule S E C O) (N : Now S) (decode : Nat → DaoCore.CosmosMsg) :=
  Ev (World V N decode) Env (Call V N decode) PrePropose.Out

end Verif.DepositMulti
