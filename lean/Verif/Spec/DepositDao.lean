import Verif.Model.DepositDao
import Verif.Spec.WholeDao
import Verif.Spec.PrePropose
/-!
# Specification vocabulary for a DAO with a pre-propose module
-/

namespace Verif.Spec.DepositDao
open Verif Verif.Voting Verif.DepositDao
open Verif.PrePropose (Deposit)
open Verif.WholeDao (VotingModule)
open Verif.WholeCondorcet (Now)
open Verif.Spec.WholeDao (Decided NearlyDecided)
open Verif.Spec.PrePropose (MaySubmit)

variable {S E C O : Type} {V : VotingModule S E C O} {decode : Nat → DaoCore.CosmosMsg}

/-- The call of the DAO an event makes, and what the DAO sees: directly; by the pre-propose module, in the name of who
calls it; or the reply to a completion hook that failed. -/
def daoCall (e : Event V decode) : Option (WholeDao.Env × WholeDao.Call E C) :=
  match e.call with
  | .propose p => some ({ e.env.dao with sender := e.pre.here },
      .prop (.propose (some e.env.dao.sender) p.content p.msgs p.vote p.sizeOk))
  | .module c => some (e.env.dao, c)
  | .deliver _ => if e.out.failed then some (e.env.dao, .prop .replyFailedPreProposeHook) else none
  | _ => none

/-- An event as the DAO sees it. -/
def daoEvent (e : Event V decode) : Option (WholeDao.Event S E C) :=
  match daoCall e with
  | some (env, c) =>
    match WholeDao.step V decode e.pre.mod env c with
    | .ok (_, o) => some ⟨e.pre.mod, env, c, o, e.post.mod⟩
    | .error _ => none
  | none => none

/-- A history as the DAO sees it. -/
def daoLog (log : List (Event V decode)) : List (WholeDao.Event S E C) := log.filterMap daoEvent

/-- Whoever submits leaves the deposit that is asked for: coins are attached and go to the pre-propose module, cw20
tokens are to be taken from them in the same transaction. -/
def LeavesDeposit (s : Event V decode) : Option Deposit → Prop
  | none => s.post.takes = s.pre.takes
  | some ⟨.native n, amount, _⟩ => s.env.funds = [(n, amount)] ∧
      s.post.holds (.native n) = s.pre.holds (.native n) + amount
  | some ⟨.cw20 c, amount, _⟩ => s.post.takes = s.pre.takes ++ [(s.env.dao.sender, .cw20 c, amount)]

/-- The event submits this proposal through the pre-propose module: the sender, its proposer, may submit under the
policy in force with the power they have then, and leaves the deposit in force. -/
def Submits (N : Now S) (s : Event V decode) (id : Nat) (q : Single.Proposal) : Prop :=
  ∃ p, s.call = .propose p ∧ s.out.newId = some id ∧ q.msgs = p.msgs ∧ q.content = p.content ∧
    q.proposer = s.env.dao.sender ∧
    MaySubmit s.pre.pre.config.policy (fun a => N.power s.pre.mod.vote a s.env.dao.block) s.env.dao.sender ∧
    LeavesDeposit s s.pre.pre.config.deposit

/-- In an event a decided proposal is executed, and hands the DAO a message. `l0` is what happened to the DAO before the
pre-propose module was there. The proposal was submitted through the pre-propose module, or is one of the `old` first
proposals, which were there before it. -/
def BySubmission (V : VotingModule S E C O) (N : Now S) (decode : Nat → DaoCore.CosmosMsg)
    (l0 : List (WholeDao.Event S E C)) (old : Nat) (log : List (Event V decode)) (e : Event V decode)
    (m : DaoCore.CosmosMsg) : Prop :=
  ∃ later before id q n, log = later ++ e :: before ∧ e.call = .module (.prop (.execute id false)) ∧
    e.pre.mod.prop.proposals.get id = some q ∧ n ∈ q.msgs ∧ m = decode n ∧
    (NineDecAll q.threshold → Decided V (daoLog before ++ l0) e.pre.mod.vote e.env.dao.block id q) ∧
    NearlyDecided V (daoLog before ++ l0) e.pre.mod.vote e.env.dao.block id q ∧
    (id ≤ old ∨ ∃ s ∈ before, Submits N s id q)

end Verif.Spec.DepositDao

namespace Verif.Spec.DepositDao
open Verif Verif.Voting Verif.DepositDao
open Verif.PrePropose (Deposit)
open Verif.WholeDao (VotingModule)

variable {S E C O : Type} {V : VotingModule S E C O} {decode : Nat → DaoCore.CosmosMsg}

/-- The coins to attach to a submission. -/
def fundsFor : Option Deposit → List (Nat × Nat)
  | some ⟨.native n, amount, _⟩ => [(n, amount)]
  | _ => []

/-- The deposit in cw20 tokens is taken by a further message. -/
def takeCalls (V : VotingModule S E C O) (decode : Nat → DaoCore.CosmosMsg) : Option Deposit → List (Call V decode)
  | some ⟨.cw20 _, _, _⟩ => [.take 0]
  | _ => []

end Verif.Spec.DepositDao
