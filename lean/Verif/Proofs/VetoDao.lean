import Verif.Spec.VetoDao
import Verif.Props.WholeDao
/-! The two DAOs of a history of a DAO and the DAO that may veto its proposals. -/

theorem Verif.Sys.Run.earlier {S E C O : Type} {M : Verif.Sys S E C O} {s s' : S} {b b0 b' : Verif.Block}
    {l : List (Verif.Ev S E C O)} (h : M.Run s b l s' b') (hb : b0.le b) : ∃ b2, M.Run s b0 l s' b2 ∧ b2.le b' := by
  induction h with
  | refl => exact ⟨b0, .refl, hb⟩
  | step hr hb1 hs ih =>
    obtain ⟨b2, h1, h2⟩ := ih
    exact ⟨_, .step h1 (Verif.Block.le_trans h2 hb1) hs, Verif.Block.le_refl _⟩

namespace Verif.WholeDao
open Verif Verif.Voting Verif.Spec Verif.Spec.WholeDao

variable {S E C O : Type} {V : VotingModule S E C O} {decode : Nat → DaoCore.CosmosMsg}

theorem stack_core {c c' : DaoCore.World} {e : DaoCore.Env} {m : DaoCore.Call} {out : List DaoCore.Sub}
    (h : DaoCore.step c e m = .ok (c', out)) :
    c'.core.me = c.core.me ∧ ∀ d ∈ c'.stack, d ∈ out ∨ d ∈ c.stack := by
  have hd := DaoCore.step_does h
  refine ⟨DaoCore.does_me hd, fun d hm => ?_⟩
  cases hd with
  | msg hh _ _ _ hs1 hs2 _ =>
    simp only at hs1 hs2
    rw [hs2, List.mem_append] at hm
    rw [hs1, List.mem_append]
    rcases hm with hm | hm
    · exact Or.inl hm
    · exact Or.inr (Or.inr hm)
  | rep hh _ _ _ _ _ hs1 hs2 =>
    simp only at hs1 hs2
    rw [hs2, List.mem_append] at hm
    rw [hs1, List.mem_cons]
    rcases hm with hm | hm
    · exact Or.inl hm
    · exact Or.inr (Or.inr hm)
  | other hh _ _ hs1 hs2 =>
    simp only at hs1 hs2
    rw [hs2] at hm
    rw [hs1, List.mem_cons]
    exact Or.inr (Or.inr hm)

theorem stack_step {w w' : World S} {e : Env} {c : Call E C} {out : Out} (h : step V decode w e c = .ok (w', out)) :
    w'.core.core.me = w.core.core.me ∧ ∀ d ∈ w'.core.stack, d ∈ out.core ∨ d ∈ w.core.stack := by
  cases c with
  | core m => exact stack_core (core_effect h).2.1
  | vote ve m =>
    obtain ⟨_, _, _, hc, _⟩ := vote_effect h
    rw [hc]; exact ⟨rfl, fun d hd => Or.inr hd⟩
  | prop m =>
    obtain ⟨_, _, _, _, ⟨hc, _⟩ | ⟨_, _, _, _, hc⟩⟩ := prop_effect h
    · rw [hc]; exact ⟨rfl, fun d hd => Or.inr hd⟩
    · exact stack_core hc

theorem me_run {w0 w : World S} {b0 b : Block} {log : List (Event S E C)} (h : (sys V decode).Run w0 b0 log w b) :
    w.core.core.me = w0.core.core.me := by
  induction h with
  | refl => rfl
  | step hr hb hs ih => rw [(stack_step hs).1, ih]

/-- What is on the list of a DAO was there in the beginning or came out of a call. -/
theorem waiting {w0 w : World S} {b0 b : Block} {log : List (Event S E C)} (h : (sys V decode).Run w0 b0 log w b) :
    ∀ d ∈ w.core.stack, d ∈ w0.core.stack ∨ ∃ e ∈ log, d ∈ e.out.core := by
  induction h with
  | refl => exact fun d hd => Or.inl hd
  | step hr hb hs ih =>
    intro d hd
    rcases (stack_step hs).2 d hd with h1 | h1
    · exact Or.inr ⟨_, List.mem_cons_self, h1⟩
    · rcases ih d h1 with h2 | ⟨e, he, h2⟩
      · exact Or.inl h2
      · exact Or.inr ⟨e, List.mem_cons_of_mem _ he, h2⟩

end Verif.WholeDao

namespace Verif.VetoDao
open Verif Verif.Voting Verif.Spec Verif.Spec.VetoDao
open Verif.WholeDao (VotingModule Env)

variable {S T E C O F D P : Type} {V : VotingModule S E C O} {U : VotingModule T F D P}
  {decode decodeWatcher : Nat → DaoCore.CosmosMsg} {toOrder : ToOrder}

theorem watched_effect {w w' : World S T} {e : Env} {c : WholeDao.Call E C} {out : Out}
    (h : step V U decode decodeWatcher toOrder w e (.watched c) = .ok (w', out)) :
    watchedAlone w.watcher.core.core.me e.sender c = true ∧
    WholeDao.step V decode w.watched e c = .ok (w'.watched, out.watched) ∧ w'.watcher = w.watcher ∧ out.watcher = silent := by
  simp only [step, bind_ok, require_ok, Prod.exists, Except.ok.injEq, Prod.mk.injEq] at h
  obtain ⟨_, h1, p, o, h2, rfl, rfl⟩ := h
  exact ⟨h1, h2, rfl, rfl⟩

theorem watcher_effect {w w' : World S T} {e : Env} {c : WholeDao.Call F D} {out : Out}
    (h : step V U decode decodeWatcher toOrder w e (.watcher c) = .ok (w', out)) :
    watcherAlone toOrder w.watcher.core.stack c = true ∧
    WholeDao.step U decodeWatcher w.watcher e c = .ok (w'.watcher, out.watcher) ∧ w'.watched = w.watched ∧
    out.watched = silent := by
  simp only [step, bind_ok, require_ok, Prod.exists, Except.ok.injEq, Prod.mk.injEq] at h
  obtain ⟨_, h1, p, o, h2, rfl, rfl⟩ := h
  exact ⟨h1, h2, rfl, rfl⟩

theorem pass_effect {w w' : World S T} {e : Env} {fails : Bool} {out : Out}
    (h : step V U decode decodeWatcher toOrder w e (.pass fails) = .ok (w', out)) :
    ∃ m, next toOrder w.watcher.core.stack = some m ∧
    WholeDao.step U decodeWatcher w.watcher e (.core (.deliver ⟨0, []⟩)) = .ok (w'.watcher, out.watcher) ∧
    WholeDao.step V decode w.watched { e with sender := w.watcher.core.core.me } (.prop (m.call fails)) =
      .ok (w'.watched, out.watched) := by
  simp only [step, bind_ok, orErr_ok, Prod.exists, Except.ok.injEq, Prod.mk.injEq] at h
  obtain ⟨m, h1, p, o, h2, q, o', h3, rfl, rfl⟩ := h
  exact ⟨m, h1, h2, h3⟩

theorem next_mem {l : List DaoCore.Sub} {m : Order} (h : next toOrder l = some m) :
    ∃ n rest, l = .send (.other n) :: rest ∧ toOrder n = some m := by
  unfold next at h
  split at h
  · exact ⟨_, _, rfl, h⟩
  · cases h

/-- What came out of a call of the proposal module alone. -/
theorem mem_propLog {e : WholeDao.Event S E C} {c : Single.Call} {log : List (WholeDao.Event S E C)} {w0 w : WholeDao.World S}
    {b0 b : Block} (h : (WholeDao.sys V decode).Run w0 b0 log w b) (he : e ∈ log) (hc : e.call = .prop c) :
    ∃ o, (⟨e.pre.prop, WholeDao.propEnv V e.pre e.env, c, o, e.post.prop⟩ : Single.Event) ∈ Spec.WholeDao.propLog V log := by
  induction h with
  | refl => cases he
  | @step s1 s2 b3 log env call out hr hb3 hs ih =>
    rcases List.mem_cons.1 he with rfl | he
    · simp only at hc
      subst hc
      obtain ⟨⟨o, ho, _⟩, _⟩ := WholeDao.prop_effect (V := V) (decode := decode) hs
      refine ⟨o, ?_⟩
      simp only [Spec.WholeDao.propLog, ho]
      exact List.mem_cons_self
    · obtain ⟨o, ho⟩ := ih he
      refine ⟨o, ?_⟩
      unfold Spec.WholeDao.propLog
      split
      · exact List.mem_cons_of_mem _ ho
      · exact ho

end Verif.VetoDao
