import Verif.Model.DepositMulti
import Verif.Spec.WholeMulti
import Verif.Spec.PrePropose
/-!
# Specification vocabulary for a multiple choice DAO with a pre-propose module
-/

namespace Verif.Spec.DepositMulti
open Verif Verif.Voting Verif.DepositMulti
open Verif.PrePropose (Deposit)
open Verif.WholeDao (VotingModule)
open Verif.WholeCondorcet (Now)
open Verif.Spec.WholeMulti (Decided NearlyDecided)
open Verif.Spec.PrePropose (MaySubmit)

variable {S E C O : Type} {V : VotingModule S E C O} {N : Now S} {decode : Nat → DaoCore.CosmosMsg}

/-- The call of the DAO an event makes, and what the DAO sees: directly; by the pre-propose module, in the name of who
calls it; or the reply to a completion hook that failed. -/
def daoCall (e : Event V N decode) : Option (WholeMulti.Env × WholeMulti.Call E C) :=
  match e.call with
  | .propose p => some ({ e.env.dao with sender := e.pre.here },
      .prop (.propose (some e.env.dao.sender) p.content p.options p.vote p.sizeOk))
  | .module c => some (e.env.dao, c)
  | .deliver _ => if e.out.failed then some (e.env.dao, .prop .replyFailedPreProposeHook) else none
  | _ => none

/-- An event as the DAO sees it. -/
def daoEvent (e : Event V N decode) : Option (WholeMulti.Event S E C) :=
  match daoCall e with
  | some (env, c) =>
    match WholeMulti.step V N.total decode e.pre.mod env c with
    | .ok (_, o) => some ⟨e.pre.mod, env, c, o, e.post.mod⟩
    | .error _ => none
  | none => none

/-- A history as the DAO sees it. -/
def daoLog (log : List (Event V N decode)) : List (WholeMulti.Event S E C) := log.filterMap daoEvent

/-- Whoever submits leaves the deposit that is asked for: coins are attached and go to the pre-propose module, cw20
tokens are to be taken from them in the same transaction. -/
def LeavesDeposit (s : Event V N decode) : Option Deposit → Prop
  | none => s.post.takes = s.pre.takes
  | some ⟨.native n, amount, _⟩ => s.env.funds = [(n, amount)] ∧
      s.post.holds (.native n) = s.pre.holds (.native n) + amount
  | some ⟨.cw20 c, amount, _⟩ => s.post.takes = s.pre.takes ++ [(s.env.dao.sender, .cw20 c, amount)]

/-- The proposal offers these options, in order, and last "none of the above", which does nothing. -/
def Offers (q : Multiple.Proposal) (options : List (Nat × List Nat)) : Prop :=
  q.choices.map (fun c => (c.content, c.msgs)) = options ++ [(0, [])]

/-- The event submits this proposal through the pre-propose module: the sender, its proposer, may submit under the
policy in force with the power they have then, and leaves the deposit in force. -/
def Submits (s : Event V N decode) (id : Nat) (q : Multiple.Proposal) : Prop :=
  ∃ p, s.call = .propose p ∧ s.out.newId = some id ∧ Offers q p.options ∧ q.content = p.content ∧
    q.proposer = s.env.dao.sender ∧
    MaySubmit s.pre.pre.config.policy (fun a => N.power s.pre.mod.vote a s.env.dao.block) s.env.dao.sender ∧
    LeavesDeposit s s.pre.pre.config.deposit

/-- In an event a proposal is executed, and hands the DAO a message of the option the members decided for. `l0` is what happened to the DAO before the
pre-propose module was there. The proposal was submitted through the pre-propose module, or is one of the `old` first
proposals, which were there before it. -/
def BySubmission (V : VotingModule S E C O) (N : Now S) (decode : Nat → DaoCore.CosmosMsg)
    (l0 : List (WholeMulti.Event S E C)) (old : Nat) (log : List (Event V N decode)) (e : Event V N decode)
    (m : DaoCore.CosmosMsg) : Prop :=
  ∃ later before id q i c n, log = later ++ e :: before ∧ e.call = .module (.prop (.execute id false)) ∧
    e.pre.mod.prop.proposals.get id = some q ∧ q.choices[i]? = some c ∧ n ∈ c.msgs ∧ m = decode n ∧
    (NineDec q.quorum → Decided V N.total (daoLog before ++ l0) e.pre.mod.vote e.env.dao.block id q i) ∧
    NearlyDecided V N.total (daoLog before ++ l0) e.pre.mod.vote e.env.dao.block id q i ∧
    (id ≤ old ∨ ∃ s ∈ before, Submits s id q)

/-- The coins to attach to a submission. -/
def fundsFor : Option Deposit → List (Nat × Nat)
  | some ⟨.native n, amount, _⟩ => [(n, amount)]
  | _ => []

/-- The deposit in cw20 tokens is taken by a further message. -/
def takeCalls (V : VotingModule S E C O) (N : Now S) (decode : Nat → DaoCore.CosmosMsg) :
    Option Deposit → List (Call V N decode)
  | some ⟨.cw20 _, _, _⟩ => [.take 0]
  | _ => []

end Verif.Spec.DepositMulti
