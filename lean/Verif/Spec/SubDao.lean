import Verif.Model.SubDao
import Verif.Spec.FullDao
/-!
# Specification vocabulary for a DAO and its SubDAO
-/

namespace Verif.Spec.SubDao
open Verif Verif.SubDao
open Verif.WholeDao (VotingModule)
open Verif.Spec.FullDao (coreEvent Chosen)

variable {S T E C O F D P : Type}

/-- What an event is for the parent. -/
def parentEvent (e : Event S T E C F D) : Option (FullDao.Event S E C) :=
  match e.call with
  | .parent c => some ⟨e.pre.parent, e.env, c, e.out.parent, e.post.parent⟩
  | .child _ => none
  | .pass => some ⟨e.pre.parent, e.env, .core (.deliver ⟨0, []⟩), e.out.parent, e.post.parent⟩

/-- The history of the parent. -/
def parentLog (log : List (Event S T E C F D)) : List (FullDao.Event S E C) := log.filterMap parentEvent

/-- What the parent tells the SubDAO in an event. -/
def told (toChild : ToChild) (e : Event S T E C F D) : Option DaoCore.Msg :=
  match e.call with
  | .pass => next toChild e.pre.parent.core.stack
  | _ => none

/-- What an event is for the SubDAO. -/
def childEvent (toChild : ToChild) (e : Event S T E C F D) : Option (FullDao.Event T F D) :=
  match e.call with
  | .parent _ => none
  | .child c => some ⟨e.pre.child, e.env, c, e.out.child, e.post.child⟩
  | .pass => (told toChild e).map
      (fun m => ⟨e.pre.child, e.env, .core (.call e.pre.parent.core.core.me m), e.out.child, e.post.child⟩)

/-- The history of the SubDAO. -/
def childLog (toChild : ToChild) (log : List (Event S T E C F D)) : List (FullDao.Event T F D) :=
  log.filterMap (childEvent toChild)

/-- The parent never tells the SubDAO that somebody else may become its admin. -/
def KeepsAdmin (toChild : ToChild) (log : List (Event S T E C F D)) : Prop :=
  ∀ e ∈ log, ∀ n, told toChild e ≠ some (.nominateAdmin n)

/-- All enabled proposal modules of a DAO are among those it created. -/
def OwnModules (log : List (FullDao.Event T F D)) : Prop :=
  ∀ e ∈ log, ∀ a, DaoCore.Enabled e.pre.core.core a → ∃ m, e.pre.mods.get a = some m

/-- What a DAO with an outside admin sends on good authority: as for any DAO, what goes back to its founding (`first`) or to
a decision of its members; and what its admin told it to send (`byAdmin`). -/
inductive Authorised (U : VotingModule T F D P) (decode : Nat → DaoCore.CosmosMsg) (byAdmin : DaoCore.CosmosMsg → Prop)
    (first : List DaoCore.Sub) (log : List (FullDao.Event T F D)) : DaoCore.Sub → Prop where
  | founding {d : DaoCore.Sub} (h : d ∈ first) : Authorised U decode byAdmin first log d
  | proposal {later before : List (FullDao.Event T F D)} {e : FullDao.Event T F D} {a : Addr} {id : Nat} {msgs : List Nat}
      {n : Nat} (hl : log = later ++ e :: before) (h : Chosen U before e a id msgs) (ha : DaoCore.Enabled e.pre.core.core a)
      (hn : n ∈ msgs) : Authorised U decode byAdmin first log (.send (decode n))
  | admin {m : DaoCore.CosmosMsg} (h : byAdmin m) : Authorised U decode byAdmin first log (.send m)
  | voting {i : Nat} (h : Authorised U decode byAdmin first log (.send (.toSelf (.updateVotingModule i)))) :
      Authorised U decode byAdmin first log (.create .votingModuleUpdate i)
  | module {add : List Nat} {dis : List Addr} {i : Nat}
      (h : Authorised U decode byAdmin first log (.send (.toSelf (.updateProposalModules add dis)))) (hi : i ∈ add) :
      Authorised U decode byAdmin first log (.create .proposalModule i)
  | callback {e : FullDao.Event T F D} {c : DaoCore.Event} {role : DaoCore.Role} {i : Nat} {r : DaoCore.Created}
      {m : DaoCore.CosmosMsg} (h : Authorised U decode byAdmin first log (.create role i)) (he : e ∈ log)
      (hc : coreEvent e = some c) (hr : DaoCore.created c = some (role, r)) (hm : m ∈ r.callbacks) :
      Authorised U decode byAdmin first log (.send m)

/-- The admin of a DAO told it in a history to send this. -/
def AdminSent (log : List (FullDao.Event T F D)) (m : DaoCore.CosmosMsg) : Prop :=
  ∃ e ∈ log, ∃ msgs, e.call = .core (.call e.pre.core.core.admin (.executeAdminMsgs msgs)) ∧ m ∈ msgs

/-- A message is in an admin message for the SubDAO that the parent sent, and `sent` holds of what the parent sent. -/
def InAdminMsg (toChild : ToChild) (sent : DaoCore.Sub → Prop) (m : DaoCore.CosmosMsg) : Prop :=
  ∃ n msgs, sent (.send (.other n)) ∧ toChild n = some (.executeAdminMsgs msgs) ∧ m ∈ msgs

end Verif.Spec.SubDao
