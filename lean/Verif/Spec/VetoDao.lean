import Verif.Model.VetoDao
import Verif.Spec.WholeDao
/-!
# Specification vocabulary for a DAO whose proposals another DAO may veto
-/

namespace Verif.Spec.VetoDao
open Verif Verif.Voting Verif.VetoDao
open Verif.WholeDao (VotingModule)
open Verif.Spec.WholeDao (Authorised)

variable {S T E C O F D P : Type}

/-- What the watcher orders in an event. -/
def told (toOrder : ToOrder) (e : Event S T E C F D) : Option Order :=
  match e.call with
  | .pass _ => next toOrder e.pre.watcher.core.stack
  | _ => none

/-- What an event is for the watched DAO. -/
def watchedEvent (toOrder : ToOrder) (e : Event S T E C F D) : Option (WholeDao.Event S E C) :=
  match e.call with
  | .watched c => some ⟨e.pre.watched, e.env, c, e.out.watched, e.post.watched⟩
  | .watcher _ => none
  | .pass fails => (told toOrder e).map (fun m =>
      ⟨e.pre.watched, { e.env with sender := e.pre.watcher.core.core.me }, .prop (m.call fails), e.out.watched,
        e.post.watched⟩)

/-- The history of the watched DAO. -/
def watchedLog (toOrder : ToOrder) (log : List (Event S T E C F D)) : List (WholeDao.Event S E C) :=
  log.filterMap (watchedEvent toOrder)

/-- What an event is for the watcher. -/
def watcherEvent (e : Event S T E C F D) : Option (WholeDao.Event T F D) :=
  match e.call with
  | .watched _ => none
  | .watcher c => some ⟨e.pre.watcher, e.env, c, e.out.watcher, e.post.watcher⟩
  | .pass _ => some ⟨e.pre.watcher, e.env, .core (.deliver ⟨0, []⟩), e.out.watcher, e.post.watcher⟩

/-- The history of the watcher. -/
def watcherLog (log : List (Event S T E C F D)) : List (WholeDao.Event T F D) := log.filterMap watcherEvent

/-- The order goes back to a decision of the members of the watcher, whose history is `log`. -/
def Ordered (U : VotingModule T F D P) (decodeWatcher : Nat → DaoCore.CosmosMsg) (toOrder : ToOrder)
    (log : List (WholeDao.Event T F D)) (m : Order) : Prop :=
  ∃ n, toOrder n = some m ∧ Authorised U decodeWatcher log (.send (.other n))

/-- What happened before the history in question starts: `l` is the history of the watched DAO until then, and `k` that of the
watcher, which began with nothing to send. -/
def Past (V : VotingModule S E C O) (U : VotingModule T F D P) (decode decodeWatcher : Nat → DaoCore.CosmosMsg)
    (w : World S T) (b : Block) (l : List (WholeDao.Event S E C)) (k : List (WholeDao.Event T F D)) : Prop :=
  (∃ b1, (WholeDao.sys V decode).Reach w.watched b1 l ∧ b1.le b) ∧
  ∃ u b0 b1, WholeDao.Init U b0 u ∧ u.core.stack = [] ∧ (WholeDao.sys U decodeWatcher).Run u b0 k w.watcher b1 ∧ b1.le b

/-- The timelock of a proposal with veto configuration `v` is over at a block. -/
def TimelockOver (p : Single.Proposal) (v : VetoConfig) (b : Block) : Prop :=
  ∃ t, p.expiration.add v.timelockDuration = .ok t ∧ t.isExpired b = true

end Verif.Spec.VetoDao

namespace Verif.Spec.VetoDao
open Verif Verif.Voting Verif.VetoDao

/-- The vetoer may veto the proposal in a block: it is reported as being in its timelock, or as open where a veto before
passing is enabled. -/
def Vetoable (p : Single.Proposal) (v : VetoConfig) (b : Block) : Prop :=
  p.currentStatus b = .ok .opened ∧ v.vetoBeforePassed = true ∨ ∃ t, p.currentStatus b = .ok (.vetoTimelock t)

end Verif.Spec.VetoDao
