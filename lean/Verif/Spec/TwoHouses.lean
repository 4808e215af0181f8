import Verif.Model.DepositDao
import Verif.Spec.WholeDao
import Verif.Spec.PreProposeApprover
/-!
# Specification vocabulary for a DAO whose proposals another DAO has to approve
-/

namespace Verif.Spec.TwoHouses
open Verif Verif.Voting
open Verif.DepositDao (whole)
open Verif.PrePropose (Two TEnv TCall TOut AWorld AOut Env ACall Submission SinglePayload tsys sanitize payloadOf)
open Verif.WholeDao (VotingModule)
open Verif.Spec.WholeDao (Decided NearlyDecided)

/-- An event as a DAO sees it, given the call it is to the DAO. -/
def seen {S E C O : Type} (V : VotingModule S E C O) (decode : Nat → DaoCore.CosmosMsg) (pre post : WholeDao.World S) :
    Option (WholeDao.Env × WholeDao.Call E C) → Option (WholeDao.Event S E C)
  | some (env, c) =>
    match WholeDao.step V decode pre env c with
    | .ok (_, o) => some ⟨pre, env, c, o, post⟩
    | .error _ => none
  | none => none

variable {S1 E1 C1 O1 S2 E2 C2 O2 : Type} {V1 : VotingModule S1 E1 C1 O1} {V2 : VotingModule S2 E2 C2 O2}
  {d1 d2 : Nat → DaoCore.CosmosMsg}

/-- The DAO (`one`, with dao-pre-propose-approval-single) and the approving DAO (`mod`, with dao-pre-propose-approver). -/
abbrev World (V1 : VotingModule S1 E1 C1 O1) (V2 : VotingModule S2 E2 C2 O2) (d1 d2 : Nat → DaoCore.CosmosMsg) :=
  Two (whole V1 d1) (whole V2 d2)

/-- An event of a history of both. -/
abbrev Event (V1 : VotingModule S1 E1 C1 O1) (V2 : VotingModule S2 E2 C2 O2) (d1 d2 : Nat → DaoCore.CosmosMsg) :=
  Ev (World V1 V2 d1 d2) (TEnv (whole V1 d1) (whole V2 d2)) (TCall (whole V1 d1) (whole V2 d2)) TOut

/-- Both DAOs with all their contracts. -/
abbrev sys (V1 : VotingModule S1 E1 C1 O1) (V2 : VotingModule S2 E2 C2 O2) (d1 d2 : Nat → DaoCore.CosmosMsg) :
    Sys (World V1 V2 d1 d2) (TEnv (whole V1 d1) (whole V2 d2)) (TCall (whole V1 d1) (whole V2 d2)) TOut :=
  tsys (whole V1 d1) (whole V2 d2) sanitize

/-- The DAO. -/
def dao (w : World V1 V2 d1 d2) : WholeDao.World S1 := w.one.base.mod

/-- The approving DAO. -/
def approving (w : World V1 V2 d1 d2) : WholeDao.World S2 := w.mod

/-- Approving submission `id` makes the approval contract propose it to the DAO. -/
def proposeCall (w : AWorld (whole V1 d1)) (env : WholeDao.Env) (id : Nat) :
    Option (WholeDao.Env × WholeDao.Call E1 C1) :=
  match w.app.pending.get id with
  | some s => some ({ env with sender := w.base.here },
      .prop (.propose (some s.proposer) (SinglePayload.content s.payload) (SinglePayload.msgs s.payload)
        (SinglePayload.vote s.payload) (SinglePayload.sizeOk s.payload)))
  | none => none

/-- The call of the DAO an event makes, and what the DAO sees. -/
def oneCall (e : Event V1 V2 d1 d2) : Option (WholeDao.Env × WholeDao.Call E1 C1) :=
  match e.call with
  | .one (.approve id) => proposeCall e.pre.one e.env.one.mod id
  | .one (.base (.module c)) => some (e.env.one.mod, c)
  | .one (.base (.deliver _)) =>
    match e.out.one with
    | some o => if o.failed then some (e.env.one.mod, .prop .replyFailedPreProposeHook) else none
    | none => none
  | .deliver i =>
    match e.pre.queue[i]?, e.out.failed with
    | some (pid, .executed), false =>
      match e.pre.appr.toSub.get pid with
      | some id => proposeCall e.pre.one e.env.one.mod id
      | none => none
    | _, _ => none
  | _ => none

/-- The call of the approving DAO an event makes, and what that DAO sees. -/
def twoCall (e : Event V1 V2 d1 d2) : Option (WholeDao.Env × WholeDao.Call E2 C2) :=
  match e.call with
  | .two c => some (e.env.two, c)
  | .mirror i =>
    match (e.pre.mirrors[i]?).bind (payloadOf e.pre.one) with
    | some p => some ({ e.env.two with sender := e.pre.here },
        .prop (.propose (some e.pre.one.base.here) (SinglePayload.content p) [] none (SinglePayload.sizeOk p)))
    | none => none
  | .deliver _ => if e.out.failed then some (e.env.two, .prop .replyFailedPreProposeHook) else none
  | _ => none

/-- An event as the DAO sees it. -/
def oneEvent (e : Event V1 V2 d1 d2) : Option (WholeDao.Event S1 E1 C1) := seen V1 d1 (dao e.pre) (dao e.post) (oneCall e)

/-- A history as the DAO sees it. -/
def oneLog (log : List (Event V1 V2 d1 d2)) : List (WholeDao.Event S1 E1 C1) := log.filterMap oneEvent

/-- A history as the approving DAO sees it. -/
def twoLog (log : List (Event V1 V2 d1 d2)) : List (WholeDao.Event S2 E2 C2) :=
  log.filterMap (fun e => seen V2 d2 (approving e.pre) (approving e.post) (twoCall e))

/-- Submission `id` was made in this history: with these contents, by this proposer. -/
def Submitted (log : List (Event V1 V2 d1 d2)) (id : Nat) (p : SinglePayload) (a : Addr) : Prop :=
  ∃ e ∈ log, e.call = .one (.submit p) ∧ e.env.one.mod.sender = a ∧ ∃ o, e.out.one = some o ∧ o.approvalId = some id

/-- The members of the approving DAO have decided for the submission a proposal was made of. The submission, by the
proposer and with the contents and the messages of the proposal, was put to them as a proposal with the same contents
and no messages; it was executed, and when it was they had decided for it. `l` is what happened to the approving DAO
before. -/
def Approved (l : List (WholeDao.Event S2 E2 C2)) (log : List (Event V1 V2 d1 d2)) (q : Single.Proposal) : Prop :=
  ∃ id pid p later x before y f,
    Submitted log id p q.proposer ∧ q.content = p.content ∧ q.msgs = p.msgs ∧ (pid, id) ∈ Spec.Approver.mirrored log ∧
    log = later ++ x :: before ∧ x.call = .two (.prop (.execute pid f)) ∧
    (approving x.pre).prop.proposals.get pid = some y ∧ y.content = q.content ∧ y.msgs = [] ∧
    (NineDecAll y.threshold → Decided V2 (twoLog before ++ l) (approving x.pre).vote x.env.two.block pid y) ∧
    NearlyDecided V2 (twoLog before ++ l) (approving x.pre).vote x.env.two.block pid y

/-- In an event a proposal both the members of the DAO and those of the approving DAO have decided for is executed and
hands the DAO a message. `l1`, `l2`: what happened to the DAOs before; the `old` first proposals were there before. -/
def ByBoth (l1 : List (WholeDao.Event S1 E1 C1)) (l2 : List (WholeDao.Event S2 E2 C2)) (old : Nat)
    (log : List (Event V1 V2 d1 d2)) (e : Event V1 V2 d1 d2) (m : DaoCore.CosmosMsg) : Prop :=
  ∃ later before id q n, log = later ++ e :: before ∧ e.call = .one (.base (.module (.prop (.execute id false)))) ∧
    (dao e.pre).prop.proposals.get id = some q ∧ n ∈ q.msgs ∧ m = d1 n ∧
    (NineDecAll q.threshold → Decided V1 (oneLog before ++ l1) (dao e.pre).vote e.env.one.mod.block id q) ∧
    NearlyDecided V1 (oneLog before ++ l1) (dao e.pre).vote e.env.one.mod.block id q ∧
    (id ≤ old ∨ Approved l2 before q)

end Verif.Spec.TwoHouses
