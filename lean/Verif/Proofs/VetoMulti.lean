import Verif.Spec.VetoMulti
import Verif.Proofs.VetoDao
import Verif.Props.WholeMulti
/-! The two DAOs of a history of a DAO with a multiple choice module and the DAO that may veto its proposals. -/

namespace Verif.VetoMulti
open Verif Verif.Voting Verif.Spec Verif.Spec.VetoMulti
open Verif.WholeDao (VotingModule)

variable {S T E C O F D P : Type} {V : VotingModule S E C O} {N : WholeMulti.TotalNow S} {U : VotingModule T F D P}
  {decode decodeWatcher : Nat → DaoCore.CosmosMsg} {toOrder : ToOrder}

theorem watched_effect {w w' : World S T} {e : Env} {c : WholeMulti.Call E C} {out : Out}
    (h : step V N U decode decodeWatcher toOrder w e (.watched c) = .ok (w', out)) :
    watchedAlone w.watcher.core.core.me e.sender c = true ∧
    WholeMulti.step V N decode w.watched e.multi c = .ok (w'.watched, out.watched) ∧ w'.watcher = w.watcher ∧ out.watcher = silent := by
  simp only [step, bind_ok, require_ok, Prod.exists, Except.ok.injEq, Prod.mk.injEq] at h
  obtain ⟨_, h1, p, o, h2, rfl, rfl⟩ := h
  exact ⟨h1, h2, rfl, rfl⟩

theorem watcher_effect {w w' : World S T} {e : Env} {c : WholeDao.Call F D} {out : Out}
    (h : step V N U decode decodeWatcher toOrder w e (.watcher c) = .ok (w', out)) :
    watcherAlone toOrder w.watcher.core.stack c = true ∧
    WholeDao.step U decodeWatcher w.watcher e.toEnv c = .ok (w'.watcher, out.watcher) ∧ w'.watched = w.watched ∧
    out.watched = still := by
  simp only [step, bind_ok, require_ok, Prod.exists, Except.ok.injEq, Prod.mk.injEq] at h
  obtain ⟨_, h1, p, o, h2, rfl, rfl⟩ := h
  exact ⟨h1, h2, rfl, rfl⟩

theorem pass_effect {w w' : World S T} {e : Env} {fails : Bool} {out : Out}
    (h : step V N U decode decodeWatcher toOrder w e (.pass fails) = .ok (w', out)) :
    ∃ m, next toOrder w.watcher.core.stack = some m ∧
    WholeDao.step U decodeWatcher w.watcher e.toEnv (.core (.deliver ⟨0, []⟩)) = .ok (w'.watcher, out.watcher) ∧
    WholeMulti.step V N decode w.watched ({ e with sender := w.watcher.core.core.me } : Env).multi (.prop (m.call fails)) =
      .ok (w'.watched, out.watched) := by
  simp only [step, bind_ok, orErr_ok, Prod.exists, Except.ok.injEq, Prod.mk.injEq] at h
  obtain ⟨m, h1, p, o, h2, q, o', h3, rfl, rfl⟩ := h
  exact ⟨m, h1, h2, h3⟩

theorem next_mem {l : List DaoCore.Sub} {m : Order} (h : next toOrder l = some m) :
    ∃ n rest, l = .send (.other n) :: rest ∧ toOrder n = some m := by
  unfold next at h
  split at h
  · exact ⟨_, _, rfl, h⟩
  · cases h

/-- What came out of a call of the proposal module alone. -/
theorem mem_propLog {e : WholeMulti.Event S E C} {c : Multiple.Call} {log : List (WholeMulti.Event S E C)} {w0 w : WholeMulti.World S}
    {b0 b : Block} (h : (WholeMulti.sys V N decode).Run w0 b0 log w b) (he : e ∈ log) (hc : e.call = .prop c) :
    ∃ o, (⟨e.pre.prop, WholeMulti.propEnv V N e.pre e.env, c, o, e.post.prop⟩ : Multiple.Event) ∈ Spec.WholeMulti.propLog V N log := by
  induction h with
  | refl => cases he
  | @step s1 s2 b3 log env call out hr hb3 hs ih =>
    rcases List.mem_cons.1 he with rfl | he
    · simp only at hc
      subst hc
      obtain ⟨⟨o, ho, _⟩, _⟩ := WholeMulti.prop_effect (V := V) (N := N) (decode := decode) hs
      refine ⟨o, ?_⟩
      simp only [Spec.WholeMulti.propLog, ho]
      exact List.mem_cons_self
    · obtain ⟨o, ho⟩ := ih he
      refine ⟨o, ?_⟩
      unfold Spec.WholeMulti.propLog
      split
      · exact List.mem_cons_of_mem _ ho
      · exact ho

end Verif.VetoMulti
