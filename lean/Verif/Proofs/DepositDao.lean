import Verif.Spec.DepositDao
import Verif.Proofs.PreProposeSingle
import Verif.Proofs.WholeDao
import Verif.Props.PreProposeOnce
/-! A whole DAO obeys what a pre-propose module relies on, and sees a history of its own. -/

namespace Verif.DepositDao
open Verif Verif.Voting
open Verif.Spec Verif.Spec.DepositDao
open Verif.PrePropose (singleCompleted)
open Verif.WholeDao (VotingModule propEnv)
open Verif.WholeCondorcet (Now)

variable {S E C O : Type} {V : VotingModule S E C O} {decode : Nat → DaoCore.CosmosMsg} {N : Now S}

/-! ### The laws -/

theorem whole_step {w w' : WholeDao.World S} {e : WholeDao.Env} {c : WholeDao.Call E C} {o : PrePropose.ModOut}
    (h : (whole V decode).step w e c = .ok (w', o)) :
    ∃ o1, WholeDao.step V decode w e c = .ok (w', o1) ∧
      o = ⟨o1.prop.bind (·.newId), (o1.prop.map (fun o => singleCompleted o.msgs)).getD []⟩ := by
  obtain ⟨⟨s1, o1⟩, h1, h2⟩ := (bind_ok _ _ _).mp h
  have h3 : ((s1, (⟨o1.prop.bind (·.newId), (o1.prop.map (fun o => singleCompleted o.msgs)).getD []⟩ :
      PrePropose.ModOut)) : WholeDao.World S × PrePropose.ModOut) = (w', o) := by injection h2
  injection h3 with h3 h4
  subst h3
  exact ⟨o1, h1, h4.symm⟩

theorem whole_of_step {w w' : WholeDao.World S} {e : WholeDao.Env} {c : WholeDao.Call E C} {o1 : WholeDao.Out}
    (h : WholeDao.step V decode w e c = .ok (w', o1)) :
    (whole V decode).step w e c =
      .ok (w', ⟨o1.prop.bind (·.newId), (o1.prop.map (fun o => singleCompleted o.msgs)).getD []⟩) := by
  change (WholeDao.step V decode w e c >>= _) = _
  rw [h]; rfl

theorem single_of_step {s s' : Single.State} {e : Single.Env} {c : Single.Call} {o1 : Single.Out}
    (h : Single.step s e c = .ok (s', o1)) :
    PrePropose.single.step s e c = .ok (s', ⟨o1.newId, singleCompleted o1.msgs⟩) := by
  change (Single.step s e c >>= _) = _
  rw [h]; rfl

/-- A call of the DAO is a call of its proposal module, or leaves that alone. -/
theorem whole_cases {w w' : WholeDao.World S} {e : WholeDao.Env} {c : WholeDao.Call E C} {o : PrePropose.ModOut}
    (h : (whole V decode).step w e c = .ok (w', o)) :
    (∃ m, c = .prop m ∧ PrePropose.single.step w.prop (propEnv V w e) m = .ok (w'.prop, o)) ∨
      (w'.prop = w.prop ∧ o = ⟨none, []⟩) := by
  obtain ⟨o1, h1, rfl⟩ := whole_step h
  cases c with
  | core m =>
    obtain ⟨_, _, h2, _, _, _, h3⟩ := WholeDao.core_effect h1
    right; refine ⟨h2, ?_⟩; rw [h3]; rfl
  | vote ve m =>
    obtain ⟨_, _, h2, _, _, _, h3⟩ := WholeDao.vote_effect h1
    right; refine ⟨h2, ?_⟩; rw [h3]; rfl
  | prop m =>
    obtain ⟨⟨o2, h2, h3⟩, _⟩ := WholeDao.prop_effect h1
    left
    refine ⟨m, rfl, ?_⟩
    rw [h2]
    exact single_of_step h3

theorem lawful : PrePropose.LawfulBy (whole V decode) (fun w => Single.Inv w.prop) where
  init_inv := by
    rintro b s ⟨_, _, _, env, c, i, out, _, _, h⟩
    exact Single.inv_init h
  step_inv := by
    intro s s' e c o hi h
    rcases whole_cases h with ⟨m, rfl, h1⟩ | ⟨h1, rfl⟩
    · exact Single.lawful.step_inv hi h1
    · exact h1 ▸ hi
  called := fun _ _ => ⟨rfl, rfl⟩
  count_step := by
    intro s s' e c o hi h
    rcases whole_cases h with ⟨m, rfl, h1⟩ | ⟨h1, rfl⟩
    · exact Single.lawful.count_step hi h1
    · right; exact ⟨rfl, congrArg (·.count) h1⟩
  propose_new := by
    intro s s' e a p o h
    rcases whole_cases h with ⟨m, hm, h1⟩ | ⟨h1, rfl⟩
    · injection hm with hm; subst hm
      exact Single.lawful.propose_new (a := a) (p := p) h1
    · obtain ⟨o1, h2, h3⟩ := whole_step h
      obtain ⟨⟨o2, h4, h5⟩, _⟩ := WholeDao.prop_effect h2
      have h6 := Single.lawful.propose_new (a := a) (p := p) (single_of_step h5)
      injection h3 with h3 _
      rw [h4] at h3
      have h7 : o2.newId = none := h3.symm
      exact absurd (h7.symm.trans h6.1) (by simp)
  new_by := by
    intro s s' e c o h hne
    rcases whole_cases h with ⟨m, rfl, h1⟩ | ⟨h1, rfl⟩
    · exact Single.lawful.new_by h1 hne
    · exact absurd rfl hne
  status_count := by
    intro s id st hi h
    exact Single.lawful.status_count hi h
  final_stays := by
    intro s s' e c o id st hi h hs hf
    rcases whole_cases h with ⟨m, rfl, h1⟩ | ⟨h1, rfl⟩
    · exact Single.lawful.final_stays hi h1 hs hf
    · change (s'.prop.proposals.get id).map _ = _; rw [h1]; exact hs
  completed := by
    intro s s' e c o hi h
    rcases whole_cases h with ⟨m, rfl, h1⟩ | ⟨h1, rfl⟩
    · exact Single.lawful.completed hi h1
    · left
      refine ⟨rfl, ?_⟩
      intro id st hst _
      change (s'.prop.proposals.get id).map _ = _ at hst
      rw [h1] at hst; exact hst
  failed := by
    intro s s' hi h
    obtain ⟨⟨s1, o1⟩, h1, h2⟩ := (bind_ok _ _ _).mp h
    injection h2 with h2
    subst h2
    have h3 : PrePropose.single.hookFailed s.prop = .ok s1 := by
      change (Single.replyPreProposeFailed s.prop >>= _) = _
      rw [h1]; rfl
    exact Single.lawful.failed hi h3
  failed_live := by
    intro s a h
    obtain ⟨s1, h1⟩ := Single.lawful.failed_live (s := s.prop) h
    obtain ⟨⟨s2, o2⟩, h2, _⟩ := (bind_ok _ _ _).mp h1
    refine ⟨{ s with prop := s2 }, ?_⟩
    change (Single.replyPreProposeFailed s.prop >>= fun x => .ok { s with prop := x.1 }) = _
    rw [h2]; rfl

theorem whole_lawful : PrePropose.Lawful (whole V decode) := ⟨_, lawful⟩

/-! ### The history the pre-propose module sees -/

/-- An event with the voting powers the pre-propose module asked for. -/
def preEvent (N : Now S) (e : Event V decode) :
    Ev (World V decode) (PrePropose.Env (whole V decode)) (Call V decode) PrePropose.Out :=
  ⟨e.pre, preEnv N e.pre e.env, e.call, e.out, e.post⟩

theorem reachable {w : WholeDao.World S} {b : Block} {l : List (WholeDao.Event S E C)}
    (h : (WholeDao.sys V decode).Reach w b l) : PrePropose.PropModule.Reachable (whole V decode) b w := by
  obtain ⟨b0, w0, h0, hr⟩ := h
  induction hr with
  | refl => exact .init h0
  | step hr hb hs ih => exact .step ih hb (whole_of_step hs)

theorem pre_run {w w' : World V decode} {b b' : Block} {log : List (Event V decode)}
    (h : (sys V N decode).Run w b log w' b') :
    (PrePropose.sys (whole V decode)).Run w b (log.map (preEvent N)) w' b' := by
  induction h with
  | refl => exact .refl
  | step hr hb hs ih => exact .step (M := PrePropose.sys (whole V decode)) ih hb hs

theorem pre_reach {w w' : World V decode} {b b' : Block} {l0 : List (WholeDao.Event S E C)} {log : List (Event V decode)}
    (h0 : (WholeDao.sys V decode).Reach w.mod b l0) (hf : Fresh w) (h : (sys V N decode).Run w b log w' b') :
    (PrePropose.sys (whole V decode)).Reach w' b' (log.map (preEvent N)) := by
  exact ⟨b, w, ⟨reachable h0, hf.queue, hf.takes, hf.notDao, hf.notModule, hf.made⟩, pre_run h⟩

/-! ### The history the DAO sees -/

theorem hookFailed_step {w w' : WholeDao.World S} (e : WholeDao.Env) (h : (whole V decode).hookFailed w = .ok w') :
    ∃ o, WholeDao.step V decode w e (.prop .replyFailedPreProposeHook) = .ok (w', o) := by
  obtain ⟨⟨s1, o1⟩, h1, h2⟩ := (bind_ok _ _ _).mp h
  injection h2 with h2
  subst h2
  have h3 := h1
  unfold Single.replyPreProposeFailed at h3
  split at h3
  · cases h3
  · simp only [Except.ok.injEq, Prod.mk.injEq] at h3
    obtain ⟨_, h4⟩ := h3
    refine ⟨⟨some o1, []⟩, ?_⟩
    simp only [WholeDao.step, bind_ok, Prod.exists]
    refine ⟨s1, o1, h1, w.core, [], ?_, rfl⟩
    rw [← h4]; rfl

/-- An event changes the DAO as the DAO sees it, or not at all. -/
theorem dao_event {w w' : World V decode} {e : Env} {c : Call V decode} {o : PrePropose.Out}
    (h : step V N decode w e c = .ok (w', o)) :
    (∃ env' c' o', daoCall (⟨w, e, c, o, w'⟩ : Event V decode) = some (env', c') ∧ env'.block = e.dao.block ∧
      WholeDao.step V decode w.mod env' c' = .ok (w'.mod, o') ∧
      daoEvent (⟨w, e, c, o, w'⟩ : Event V decode) = some ⟨w.mod, env', c', o', w'.mod⟩ ∧
      o.newId = o'.prop.bind (·.newId)) ∨
    (daoEvent (⟨w, e, c, o, w'⟩ : Event V decode) = none ∧ w'.mod = w.mod ∧ o.newId = none) := by
  have key : ∀ {env' c' o'}, daoCall (⟨w, e, c, o, w'⟩ : Event V decode) = some (env', c') →
      env'.block = e.dao.block → WholeDao.step V decode w.mod env' c' = .ok (w'.mod, o') →
      o.newId = o'.prop.bind (·.newId) →
      ∃ env' c' o', daoCall (⟨w, e, c, o, w'⟩ : Event V decode) = some (env', c') ∧ env'.block = e.dao.block ∧
      WholeDao.step V decode w.mod env' c' = .ok (w'.mod, o') ∧
      daoEvent (⟨w, e, c, o, w'⟩ : Event V decode) = some ⟨w.mod, env', c', o', w'.mod⟩ ∧
      o.newId = o'.prop.bind (·.newId) := by
    intro env' c' o' h1 hb h2 h3
    refine ⟨env', c', o', h1, hb, h2, ?_, h3⟩
    unfold daoEvent
    rw [h1]
    simp only [h2]
  unfold step PrePropose.step at h
  cases c with
  | propose p =>
    left
    simp only [PrePropose.stepPropose, bind_ok, require_ok, Prod.exists] at h
    obtain ⟨_, _, bal, _, pre, takes, _, m, mo, ⟨w1, o1, h4, h1⟩, h2⟩ := h
    injection h2 with h2; injection h2 with h2 h3
    injection h1 with h1; injection h1 with h1 h5
    subst h2 h3 h1 h5
    exact key rfl rfl h4 rfl
  | pre m =>
    right
    simp only [PrePropose.stepPre, bind_ok, require_ok, Prod.exists] at h
    obtain ⟨_, _, bal, _, pre, takes, _, m, mo, h2⟩ := h
    injection h2 with h2; injection h2 with h2 h3
    subst h2 h3
    exact ⟨rfl, rfl, rfl⟩
  | completed id st =>
    right
    simp only [PrePropose.stepCompleted, bind_ok, require_ok] at h
    obtain ⟨_, _, bal, _, pre, _, h2⟩ := h
    injection h2 with h2; injection h2 with h2 h3
    subst h2 h3
    exact ⟨rfl, rfl, rfl⟩
  | module m =>
    left
    simp only [PrePropose.stepModule, bind_ok, require_ok, Prod.exists] at h
    obtain ⟨_, _, _, _, m, mo, ⟨w1, o1, h4, h1⟩, h2⟩ := h
    injection h2 with h2; injection h2 with h2 h3
    injection h1 with h1; injection h1 with h1 h5
    subst h2 h3 h1 h5
    exact key rfl rfl h4 rfl
  | deliver i =>
    simp only [PrePropose.stepDeliver] at h
    split at h
    · cases h
    · split at h
      · right
        injection h with h2; injection h2 with h2 h3
        subst h2 h3
        exact ⟨rfl, rfl, rfl⟩
      · left
        obtain ⟨m, h1, h2⟩ := (bind_ok _ _ _).mp h
        injection h2 with h2; injection h2 with h2 h3
        subst h2 h3
        obtain ⟨o1, h3⟩ := hookFailed_step e.dao h1
        refine key rfl rfl h3 ?_
        obtain ⟨⟨o2, h4, h5⟩, _⟩ := WholeDao.prop_effect h3
        rw [h4]
        change none = o2.newId
        change Single.replyPreProposeFailed _ = _ at h5
        unfold Single.replyPreProposeFailed at h5
        split at h5
        · cases h5
        · simp only [Except.ok.injEq, Prod.mk.injEq] at h5
          rw [← h5.2]
  | take i =>
    right
    simp only [PrePropose.stepTake] at h
    split at h
    · cases h
    · obtain ⟨m, h1, h2⟩ := (bind_ok _ _ _).mp h
      injection h2 with h2; injection h2 with h2 h3
      subst h2 h3
      exact ⟨rfl, rfl, rfl⟩
  | transfer src dst t n =>
    right
    simp only [PrePropose.stepTransfer, bind_ok, require_ok] at h
    obtain ⟨_, _, bal, _, h2⟩ := h
    injection h2 with h2; injection h2 with h2 h3
    subst h2 h3
    exact ⟨rfl, rfl, rfl⟩

theorem dao_run {w w' : World V decode} {b b' : Block} {log : List (Event V decode)}
    (h : (sys V N decode).Run w b log w' b') {l0 : List (WholeDao.Event S E C)} {b0 : Block} (hb0 : b0.le b)
    (h0 : (WholeDao.sys V decode).Reach w.mod b0 l0) :
    ∃ b1, b1.le b' ∧ (WholeDao.sys V decode).Reach w'.mod b1 (daoLog log ++ l0) := by
  induction h with
  | refl => exact ⟨b0, hb0, h0⟩
  | @step w1 w2 _ log e c o hr hb hs ih =>
    obtain ⟨b1, hb1, h1⟩ := ih
    rcases dao_event hs with ⟨env', c', o', _, hbl, h2, h3, _⟩ | ⟨h2, h3, _⟩
    · refine ⟨e.dao.block, Block.le_refl _, ?_⟩
      unfold daoLog
      rw [List.filterMap_cons, h3, List.cons_append]
      rw [← hbl]
      exact Sys.Reach.step (M := WholeDao.sys V decode) (env := env') (call := c') (out := o') h1
        (by change Block.le _ env'.block; rw [hbl]; exact Block.le_trans hb1 hb) h2
    · refine ⟨b1, Block.le_trans hb1 hb, ?_⟩
      unfold daoLog
      rw [List.filterMap_cons, h2, h3]
      exact h1

end Verif.DepositDao
