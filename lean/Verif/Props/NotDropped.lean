import Verif.Spec.OwnedDao
import Verif.Spec.SubDao
import Verif.Spec.VetoDao
import Verif.Spec.VetoMulti
/-!
# What a DAO says to another contract is not lost

Whenever the next message of a DAO is one for a SubDAO, for a proposal module it may veto or for a contract it owns, sending the
message calls that contract, in the name of the DAO. So none of what the members decided about it can be skipped.
-/

namespace Verif.OwnedDao
open Verif Verif.Spec.OwnedDao
open Verif.WholeDao (VotingModule)

/-- **C122, C123.** Sending a message for the contract calls the contract. -/
theorem C122_not_dropped {T A F D P G K R : Type} {U : VotingModule T F D P} {decode : Nat → DaoCore.CosmosMsg}
    {X : Contract A G K R} {toCall : Nat → Option K} {w0 w : World T A} {b0 b : Block} {log : List (Event T A F D G K R)}
    (h : (sys U decode X toCall).Run w0 b0 log w b) {e : Event T A F D G K R} (he : e ∈ log) {n : Nat}
    {rest : List DaoCore.Sub} {k : K} (hst : e.pre.dao.core.stack = .send (.other n) :: rest) (hk : toCall n = some k)
    {ev : WholeDao.Event T F D} (hev : daoEvent e = some ev) {x : DaoCore.Created} (hx : ev.call = .core (.deliver x)) :
    ∃ v, itEvent toCall e = some v ∧ v.call = k ∧ X.caller v.env k = some e.pre.dao.core.core.me := by
  obtain ⟨_, _, _, _, _, _, hs, _⟩ := h.event e he
  obtain ⟨pre, env, call, out, post⟩ := e
  simp only at hst
  have hnext : next toCall pre.dao.core.stack = some k := by rw [hst]; exact hk
  cases call with
  | it g q => simp [daoEvent] at hev
  | dao c =>
    simp only [daoEvent, Option.some.injEq] at hev
    subst hev
    simp only at hx
    subst hx
    replace hs : step U decode X toCall pre env (.dao (.core (.deliver x))) = .ok (post, out) := hs
    simp only [step, daoAlone, hnext, Option.isNone_some, require, Bool.false_eq_true, if_false, error_bind] at hs
    cases hs
  | pass g =>
    replace hs : step U decode X toCall pre env (.pass g) = .ok (post, out) := hs
    simp only [step, bind_ok, require_ok, orErr_ok, Prod.exists, Except.ok.injEq, Prod.mk.injEq, hnext, Option.some.injEq,
      Bool.and_eq_true, decide_eq_true_eq] at hs
    obtain ⟨_, rfl, _, ⟨_, hc⟩, q, o, _, y, v, _, rfl, rfl⟩ := hs
    refine ⟨⟨pre.it, g, k, v, y⟩, ?_, rfl, hc⟩
    simp only [itEvent, called, hnext, Option.map_some]

end Verif.OwnedDao

namespace Verif.SubDao
open Verif Verif.Spec.SubDao Verif.FullDao
open Verif.WholeDao (VotingModule)
open Verif.WholeCondorcet (Now)

/-- **C96.** Sending a message for the SubDAO calls the SubDAO. -/
theorem C96_not_dropped {S T E C O F D P : Type} {V : VotingModule S E C O} {N : Now S} {U : VotingModule T F D P} {M : Now T}
    {decode decodeChild : Nat → DaoCore.CosmosMsg} {toChild : ToChild} {w0 w : World S T} {b0 b : Block}
    {log : List (Event S T E C F D)} (h : (sys V N U M decode decodeChild toChild).Run w0 b0 log w b)
    {e : Event S T E C F D} (he : e ∈ log) {n : Nat} {rest : List DaoCore.Sub} {m : DaoCore.Msg}
    (hst : e.pre.parent.core.stack = .send (.other n) :: rest) (hm : toChild n = some m)
    {ev : FullDao.Event S E C} (hev : parentEvent e = some ev) {x : DaoCore.Created} (hx : ev.call = .core (.deliver x)) :
    ∃ v, childEvent toChild e = some v ∧ v.call = .core (.call e.pre.parent.core.core.me m) := by
  obtain ⟨_, _, _, _, _, _, hs, _⟩ := h.event e he
  obtain ⟨pre, env, call, out, post⟩ := e
  simp only at hst
  have hnext : next toChild pre.parent.core.stack = some m := by rw [hst]; exact hm
  cases call with
  | child c => simp [parentEvent] at hev
  | parent c =>
    simp only [parentEvent, Option.some.injEq] at hev
    subst hev
    simp only at hx
    subst hx
    replace hs : step V N U M decode decodeChild toChild pre env (.parent (.core (.deliver x))) = .ok (post, out) := hs
    simp only [step, parentAlone, hnext, Option.isNone_some, require, Bool.false_eq_true, if_false, error_bind] at hs
    cases hs
  | pass =>
    exact ⟨⟨pre.child, env, .core (.call pre.parent.core.core.me m), out.child, post.child⟩,
      by simp only [childEvent, told, hnext, Option.map_some], rfl⟩

end Verif.SubDao

namespace Verif.VetoDao
open Verif Verif.Spec.VetoDao
open Verif.WholeDao (VotingModule)

/-- **C118.** Sending an order gives it to the proposal module of the watched DAO. -/
theorem C118_not_dropped {S T E C O F D P : Type} {V : VotingModule S E C O} {U : VotingModule T F D P}
    {decode decodeWatcher : Nat → DaoCore.CosmosMsg} {toOrder : ToOrder} {w0 w : World S T} {b0 b : Block}
    {log : List (Event S T E C F D)} (h : (sys V U decode decodeWatcher toOrder).Run w0 b0 log w b)
    {e : Event S T E C F D} (he : e ∈ log) {n : Nat} {rest : List DaoCore.Sub} {m : Order}
    (hst : e.pre.watcher.core.stack = .send (.other n) :: rest) (hm : toOrder n = some m)
    {ev : WholeDao.Event T F D} (hev : watcherEvent e = some ev) {x : DaoCore.Created} (hx : ev.call = .core (.deliver x)) :
    ∃ v fails, watchedEvent toOrder e = some v ∧ v.env.sender = e.pre.watcher.core.core.me ∧
      v.call = .prop (match m with | .veto id => .veto id | .execute id => .execute id fails) := by
  obtain ⟨_, _, _, _, _, _, hs, _⟩ := h.event e he
  obtain ⟨pre, env, call, out, post⟩ := e
  simp only at hst
  have hnext : next toOrder pre.watcher.core.stack = some m := by rw [hst]; exact hm
  cases call with
  | watched c => simp [watcherEvent] at hev
  | watcher c =>
    simp only [watcherEvent, Option.some.injEq] at hev
    subst hev
    simp only at hx
    subst hx
    replace hs : step V U decode decodeWatcher toOrder pre env (.watcher (.core (.deliver x))) = .ok (post, out) := hs
    simp only [step, watcherAlone, hnext, Option.isNone_some, require, Bool.false_eq_true, if_false, error_bind] at hs
    cases hs
  | pass fails =>
    refine ⟨⟨pre.watched, { env with sender := pre.watcher.core.core.me }, .prop (m.call fails), out.watched, post.watched⟩, fails,
      by simp only [watchedEvent, told, hnext, Option.map_some], rfl, ?_⟩
    cases m <;> rfl

end Verif.VetoDao

namespace Verif.VetoMulti
open Verif Verif.Spec.VetoMulti
open Verif.WholeDao (VotingModule)

/-- **C120.** Sending an order gives it to the multiple choice module of the watched DAO. -/
theorem C120_not_dropped {S T E C O F D P : Type} {V : VotingModule S E C O} {N : WholeMulti.TotalNow S}
    {U : VotingModule T F D P} {decode decodeWatcher : Nat → DaoCore.CosmosMsg} {toOrder : ToOrder} {w0 w : World S T}
    {b0 b : Block} {log : List (Event S T E C F D)} (h : (sys V N U decode decodeWatcher toOrder).Run w0 b0 log w b)
    {e : Event S T E C F D} (he : e ∈ log) {n : Nat} {rest : List DaoCore.Sub} {m : Order}
    (hst : e.pre.watcher.core.stack = .send (.other n) :: rest) (hm : toOrder n = some m)
    {ev : WholeDao.Event T F D} (hev : watcherEvent e = some ev) {x : DaoCore.Created} (hx : ev.call = .core (.deliver x)) :
    ∃ v fails, watchedEvent toOrder e = some v ∧ v.env.sender = e.pre.watcher.core.core.me ∧
      v.call = .prop (match m with | .veto id => .veto id | .execute id => .execute id fails) := by
  obtain ⟨_, _, _, _, _, _, hs, _⟩ := h.event e he
  obtain ⟨pre, env, call, out, post⟩ := e
  simp only at hst
  have hnext : next toOrder pre.watcher.core.stack = some m := by rw [hst]; exact hm
  cases call with
  | watched c => simp [watcherEvent] at hev
  | watcher c =>
    simp only [watcherEvent, Option.some.injEq] at hev
    subst hev
    simp only at hx
    subst hx
    replace hs : step V N U decode decodeWatcher toOrder pre env (.watcher (.core (.deliver x))) = .ok (post, out) := hs
    simp only [step, watcherAlone, hnext, Option.isNone_some, require, Bool.false_eq_true, if_false, error_bind] at hs
    cases hs
  | pass fails =>
    refine ⟨⟨pre.watched, ({ env with sender := pre.watcher.core.core.me } : Env).multi, .prop (m.call fails), out.watched,
      post.watched⟩, fails, by simp only [watchedEvent, told, hnext, Option.map_some], rfl, ?_⟩
    cases m <;> rfl

end Verif.VetoMulti
