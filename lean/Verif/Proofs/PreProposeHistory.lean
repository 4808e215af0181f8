import Verif.Proofs.PrePropose
import Verif.Proofs.ExternalRewards
import Mathlib.Data.List.Perm.Basic
/-! Invariants of a pre-propose module over its history. -/

namespace Verif.PrePropose
open Verif Verif.Voting Verif.Spec.PrePropose
open Verif.Spec (Final)

variable {M : PropModule} {inv : M.St → Prop}

/-- The ids whose completion was told over a history. -/
def told (log : List (Event M)) : List Nat := (log.filterMap delivered).map Prod.fst

theorem mem_told {log : List (Event M)} {id : Nat} :
    id ∈ told log ↔ ∃ e ∈ log, ∃ st, delivered e = some (id, st) := by
  simp only [told, List.mem_map, List.mem_filterMap]
  constructor
  · rintro ⟨⟨i, st⟩, ⟨e, he, hd⟩, rfl⟩
    exact ⟨e, he, st, hd⟩
  · rintro ⟨e, he, st, hd⟩
    exact ⟨(id, st), ⟨e, he, hd⟩, rfl⟩

/-- What is known of completions: those told and those waiting are of final proposals, each at most once. -/
structure Completions (M : PropModule) (s : M.St) (queue : List (Nat × Status)) (log : List (Event M)) : Prop where
  queued : ∀ x ∈ queue, ∃ st', M.statusOf s x.1 = some st' ∧ Reports x.2 st'
  past : ∀ e ∈ log, ∀ x, delivered e = some x → ∃ st', M.statusOf s x.1 = some st' ∧ Reports x.2 st'
  nodup : (queue.map Prod.fst ++ told log).Nodup

/-- A call of the proposal module keeps it. -/
theorem Completions.step {s s' : M.St} {e : M.Env} {c : M.Call} {o : ModOut} {q : List (Nat × Status)}
    {log : List (Event M)} (L : LawfulBy M inv) (hi : inv s) (h : Completions M s q log)
    (hs : M.step s e c = .ok (s', o)) (here : Addr) :
    Completions M s' (q ++ hooksFor here o.completed) log := by
  have keep : ∀ id st st', M.statusOf s id = some st' ∧ Reports st st' →
      ∃ st', M.statusOf s' id = some st' ∧ Reports st st' :=
    fun id st st' hh => ⟨st', L.final_stays hi hs hh.1 hh.2.final, hh.2⟩
  have same : hooksFor here o.completed = [] → Completions M s' (q ++ hooksFor here o.completed) log := by
    intro hn
    rw [hn, List.append_nil]
    exact ⟨fun x hx => by obtain ⟨st', hh⟩ := h.queued x hx; exact keep _ _ _ hh,
      fun ev he x hx => by obtain ⟨st', hh⟩ := h.past ev he x hx; exact keep _ _ _ hh, h.nodup⟩
  rcases L.completed hi hs with ⟨hc, _⟩ | ⟨id, st, st', st0, hc, h0, hnf, h1, hrep, _⟩
  · exact same (by rw [hc]; rfl)
  · cases hp : M.policy s with
    | anyone => exact same (by rw [hc, hp]; rfl)
    | module a =>
      by_cases ha : a = here
      · have hq : hooksFor here o.completed = [(id, st)] := by
          rw [hc, hp]; simp [hooksFor, hookOf, ha]
        rw [hq]
        have hnew : ∀ id' st'', M.statusOf s id' = some st'' → Final st'' → id' ≠ id := by
          intro id' st'' hh hf hne
          subst hne
          rw [h0] at hh; injection hh with hh; subst hh
          exact hnf hf
        refine ⟨?_, fun ev he x hx => by obtain ⟨st', hh⟩ := h.past ev he x hx; exact keep _ _ _ hh, ?_⟩
        · intro x hx
          rcases List.mem_append.1 hx with hx | hx
          · obtain ⟨st', hh⟩ := h.queued x hx; exact keep _ _ _ hh
          · simp only [List.mem_singleton] at hx; subst hx
            exact ⟨st', h1, hrep⟩
        · have hn := h.nodup
          have hid : id ∉ q.map Prod.fst ++ PrePropose.told log := by
            intro hm
            rcases List.mem_append.1 hm with hm | hm
            · obtain ⟨x, hx, rfl⟩ := List.mem_map.1 hm
              obtain ⟨s2, h2, h3⟩ := h.queued x hx
              exact hnew _ _ h2 h3.final rfl
            · obtain ⟨ev, he, st2, hd⟩ := mem_told.1 hm
              obtain ⟨s2, h2, h3⟩ := h.past ev he _ hd
              exact hnew _ _ h2 h3.final rfl
          rw [List.map_append, List.map_cons, List.map_nil, List.append_assoc]
          refine (List.Perm.nodup_iff ?_).2 (List.nodup_cons.2 ⟨hid, hn⟩)
          exact List.perm_middle
      · refine same ?_
        rw [hc, hp]
        simp [hooksFor, hookOf, ha]

/-- One more event that tells nothing. -/
theorem Completions.other {s : M.St} {q : List (Nat × Status)} {log : List (Event M)} {e : Event M}
    (h : Completions M s q log) (he : delivered e = none) : Completions M s q (e :: log) := by
  have ht : PrePropose.told (e :: log) = PrePropose.told log := by
    simp only [PrePropose.told, List.filterMap_cons, he]
  refine ⟨h.queued, ?_, ht ▸ h.nodup⟩
  intro ev hev x hx
  rcases List.mem_cons.1 hev with rfl | hev
  · rw [he] at hx; cases hx
  · exact h.past ev hev x hx

/-- One that tells a completion that waits. -/
theorem Completions.deliver {s s' : M.St} {q : List (Nat × Status)} {log : List (Event M)} {e : Event M} {i : Nat}
    {x : Nat × Status} (h : Completions M s q log) (hst : M.statusOf s' = M.statusOf s) (hi : q[i]? = some x)
    (he : delivered e = some x) :
    Completions M s' (q.eraseIdx i) (e :: log) := by
  have hx : x ∈ q := List.mem_of_getElem? hi
  have ht : PrePropose.told (e :: log) = x.1 :: PrePropose.told log := by
    simp only [PrePropose.told, List.filterMap_cons, he, List.map_cons]
  have hlt : i < q.length := (List.getElem?_eq_some_iff.1 hi).1
  have hget : q[i] = x := (List.getElem?_eq_some_iff.1 hi).2
  refine ⟨?_, ?_, ?_⟩
  · intro y hy
    rw [hst]
    exact h.queued y (List.mem_of_mem_eraseIdx hy)
  · intro ev hev y hy
    rw [hst]
    rcases List.mem_cons.1 hev with rfl | hev
    · rw [he] at hy; injection hy with hy; subst hy
      exact h.queued _ hx
    · exact h.past ev hev y hy
  · rw [ht]
    refine (List.Perm.nodup_iff ?_).1 h.nodup
    have p1 : (q.map Prod.fst).Perm (x.1 :: (q.eraseIdx i).map Prod.fst) := by
      have := (List.getElem_cons_eraseIdx_perm hlt).symm.map Prod.fst
      rwa [List.map_cons, hget] at this
    exact (p1.append_right _).trans List.perm_middle.symm

/-- What holds in every state of a history. -/
structure Inv (M : PropModule) (inv : M.St → Prop) (w : World M) (log : List (Event M)) : Prop where
  mod : inv w.mod
  daoNe : w.pre.dao ≠ w.here
  modNe : w.pre.module ≠ w.here
  good : GoodDeposit w.pre.config.deposit
  sound : SoundPolicy w.pre.config.policy
  subs : ∀ id, w.pre.deposits.get id = AMap.get (submissions log) id
  wf : AMap.WF (submissions log)
  le : ∀ id x, (id, x) ∈ submissions log → id ≤ M.count w.mod
  ok : ∀ id d a, (id, d, a) ∈ submissions log → GoodDeposit d ∧ a ≠ w.here
  comp : Completions M w.mod w.queue log
  payers : ∀ x ∈ w.takes, x.1 ≠ w.here

theorem instantiate_ok {a dao : Addr} {c : Config} {p : Pre} (h : instantiate a dao c = .ok p) :
    GoodDeposit c.deposit ∧ SoundPolicy c.policy ∧ p = ⟨a, dao, c, [], none⟩ := by
  simp only [instantiate, bind_ok, Except.ok.injEq, validate_ok, checkDeposit_ok] at h
  obtain ⟨_, h1, _, h2, rfl⟩ := h
  exact ⟨h1, h2, rfl⟩

theorem reachable_inv (L : LawfulBy M inv) {b : Block} {s : M.St} (h : M.Reachable b s) : inv s := by
  induction h with
  | init h => exact L.init_inv h
  | step _ _ h ih => exact L.step_inv ih h

theorem inv_init (L : LawfulBy M inv) {b : Block} {w : World M} (h : (sys M).init b w) : Inv M inv w [] := by
  obtain ⟨h1, h2, h3, h4, h5, c, h6⟩ := h
  obtain ⟨hg, hs, hp⟩ := instantiate_ok h6
  have e1 : w.pre.config = c := by rw [hp]
  have e2 : w.pre.deposits = [] := by rw [hp]
  refine ⟨reachable_inv L h1, h4, h5, e1 ▸ hg, e1 ▸ hs, fun _ => by rw [e2]; rfl, ?_, ?_, ?_, ⟨?_, ?_, ?_⟩, ?_⟩
  · simp [submissions, AMap.WF]
  · intro id x hx; simp [submissions] at hx
  · intro id d a hx; simp [submissions] at hx
  · rw [h2]; simp
  · simp
  · rw [h2]; simp [told]
  · rw [h3]; simp

theorem submissions_cons (e : Event M) (log : List (Event M)) :
    submissions (e :: log) = (match submission e with | some x => x :: submissions log | none => submissions log) := by
  simp only [submissions, List.filterMap_cons]
  cases submission e <;> rfl

/-- The invariant is kept. -/
theorem inv_step (L : LawfulBy M inv) {w w' : World M} {e : Env M} {c : Call M} {o : Out} {log : List (Event M)}
    (hi : Inv M inv w log) (hs : step w e c = .ok (w', o)) : Inv M inv w' (⟨w, e, c, o, w'⟩ :: log) := by
  cases c with
  | propose p =>
    simp only [step, stepPropose, bind_ok, require_ok, decide_eq_true_eq] at hs
    obtain ⟨_, ha, bal, hb, ⟨pre, ts⟩, hp, ⟨mod, mo⟩, hm, hs⟩ := hs
    simp only [Except.ok.injEq, Prod.mk.injEq] at hs
    obtain ⟨rfl, rfl⟩ := hs
    obtain ⟨_, rfl, _, hts⟩ := execPropose_ok hp
    have hnew := (L.propose_new hm).1
    have hcnt : M.count mod = M.count w.mod + 1 := by
      rcases L.count_step hi.mod hm with ⟨_, h⟩ | ⟨h, _⟩
      · exact h
      · rw [hnew] at h; cases h
    have hsub : ∀ w', submissions (M := M) (⟨w, e, .propose p, { newId := mo.newId }, w'⟩ :: log) =
        (M.count w.mod + 1, w.pre.config.deposit, M.sender e.mod) :: submissions log := by
      intro w'
      rw [submissions_cons]; simp only [submission, hnew]
    refine ⟨L.step_inv hi.mod hm, hi.daoNe, hi.modNe, hi.good, hi.sound, ?_, ?_, ?_, ?_, ?_, ?_⟩
    · intro id
      rw [hsub]
      simp only [AMap.get_set, AMap.get]
      split
      · rfl
      · exact hi.subs id
    · rw [hsub]
      unfold AMap.WF
      simp only [List.map_cons, List.nodup_cons]
      refine ⟨?_, hi.wf⟩
      intro hm
      obtain ⟨⟨id, x⟩, hx, he⟩ := List.mem_map.1 hm
      have := hi.le _ _ hx
      simp only at he; omega
    · rw [hsub]
      intro id x hx
      simp only
      rw [hcnt]
      rcases List.mem_cons.1 hx with hx | hx
      · simp only [Prod.mk.injEq] at hx; omega
      · have := hi.le _ _ hx; omega
    · rw [hsub]
      intro id d a hx
      rcases List.mem_cons.1 hx with hx | hx
      · simp only [Prod.mk.injEq] at hx
        obtain ⟨_, rfl, rfl⟩ := hx
        exact ⟨hi.good, ha⟩
      · exact hi.ok _ _ _ hx
    · exact (hi.comp.step L hi.mod hm w.here).other rfl
    · intro x hx
      rcases List.mem_append.1 hx with hx | hx
      · exact hi.payers x hx
      · rw [hts x hx]; exact ha
  | pre m =>
    simp only [step, stepPre, bind_ok, require_ok, decide_eq_true_eq] at hs
    obtain ⟨_, ha, bal, hb, ⟨pre, ps⟩, hp, bal', hpay, hs⟩ := hs
    simp only [Except.ok.injEq, Prod.mk.injEq] at hs
    obtain ⟨rfl, rfl⟩ := hs
    obtain ⟨hk, _⟩ := exec_kept hp
    have hsub : submissions (⟨w, e, .pre m, { pays := ps }, { w with pre := pre, bal := bal' }⟩ :: log) =
        submissions log := by rw [submissions_cons]; rfl
    refine ⟨hi.mod, ?_, ?_, hk.deposit hi.good, hk.policy hi.sound, ?_, ?_, ?_, ?_, hi.comp.other rfl, hi.payers⟩
    · simp only [hk.dao]; exact hi.daoNe
    · simp only [hk.module]; exact hi.modNe
    · intro id; rw [hsub]; simp only [hk.deposits]; exact hi.subs id
    · rw [hsub]; exact hi.wf
    · rw [hsub]; exact hi.le
    · rw [hsub]; exact hi.ok
  | completed id st =>
    simp only [step, stepCompleted, bind_ok, require_ok, decide_eq_true_eq] at hs
    obtain ⟨_, ha, ps, hp, bal', hpay, hs⟩ := hs
    exfalso
    unfold execCompleted at hp
    simp only [bind_ok, require_ok, decide_eq_true_eq] at hp
    obtain ⟨_, h1, _⟩ := hp
    exact ha.2 h1
  | module c =>
    simp only [step, stepModule, bind_ok, require_ok, decide_eq_true_eq] at hs
    obtain ⟨_, ha, _, hout, ⟨mod, mo⟩, hm, hs⟩ := hs
    simp only [Except.ok.injEq, Prod.mk.injEq] at hs
    obtain ⟨rfl, rfl⟩ := hs
    have hsub : submissions (⟨w, e, .module c, { newId := mo.newId },
        { w with mod := mod, queue := w.queue ++ hooksFor w.here mo.completed }⟩ :: log) =
        submissions log := by rw [submissions_cons]; rfl
    have hcnt : M.count w.mod ≤ M.count mod := by
      rcases L.count_step hi.mod hm with ⟨_, h⟩ | ⟨_, h⟩ <;> omega
    refine ⟨L.step_inv hi.mod hm, hi.daoNe, hi.modNe, hi.good, hi.sound, ?_, ?_, ?_, ?_,
      (hi.comp.step L hi.mod hm w.here).other rfl, hi.payers⟩
    · rw [hsub]; exact hi.subs
    · rw [hsub]; exact hi.wf
    · rw [hsub]; intro id x hx; exact Nat.le_trans (hi.le id x hx) hcnt
    · rw [hsub]; exact hi.ok
  | deliver i =>
    simp only [step, stepDeliver] at hs
    split at hs
    · cases hs
    · rename_i id st hq
      have hd : ∀ o' w', delivered (M := M) ⟨w, e, .deliver i, o', w'⟩ = some (id, st) := fun _ _ => hq
      have hsub : ∀ o' w', submissions (M := M) (⟨w, e, .deliver i, o', w'⟩ :: log) = submissions log := by
        intro o' w'; rw [submissions_cons]; rfl
      split at hs
      · simp only [Except.ok.injEq, Prod.mk.injEq] at hs
        obtain ⟨rfl, rfl⟩ := hs
        refine ⟨hi.mod, hi.daoNe, hi.modNe, hi.good, hi.sound, ?_, ?_, ?_, ?_,
          hi.comp.deliver rfl hq (hd _ _), hi.payers⟩
        · rw [hsub]; exact hi.subs
        · rw [hsub]; exact hi.wf
        · rw [hsub]; exact hi.le
        · rw [hsub]; exact hi.ok
      · simp only [bind_ok, Except.ok.injEq, Prod.mk.injEq] at hs
        obtain ⟨mod, hm, rfl, rfl⟩ := hs
        obtain ⟨f1, f2, f3, f4⟩ := L.failed hi.mod hm
        refine ⟨f1, hi.daoNe, hi.modNe, hi.good, hi.sound, ?_, ?_, ?_, ?_,
          hi.comp.deliver f3 hq (hd _ _), hi.payers⟩
        · rw [hsub]; exact hi.subs
        · rw [hsub]; exact hi.wf
        · rw [hsub]; simp only [f2]; exact hi.le
        · rw [hsub]; exact hi.ok
  | take i =>
    simp only [step, stepTake] at hs
    split at hs
    · cases hs
    · rename_i payer t n hq
      simp only [bind_ok, Except.ok.injEq, Prod.mk.injEq] at hs
      obtain ⟨bal, hb, rfl, rfl⟩ := hs
      have hsub : ∀ o' w', submissions (M := M) (⟨w, e, .take i, o', w'⟩ :: log) = submissions log := by
        intro o' w'; rw [submissions_cons]; rfl
      refine ⟨hi.mod, hi.daoNe, hi.modNe, hi.good, hi.sound, ?_, ?_, ?_, ?_, hi.comp.other rfl, ?_⟩
      · rw [hsub]; exact hi.subs
      · rw [hsub]; exact hi.wf
      · rw [hsub]; exact hi.le
      · rw [hsub]; exact hi.ok
      · intro x hx; exact hi.payers x (List.mem_of_mem_eraseIdx hx)
  | transfer src dst t n =>
    simp only [step, stepTransfer, bind_ok, require_ok, decide_eq_true_eq, Except.ok.injEq, Prod.mk.injEq] at hs
    obtain ⟨_, ha, bal, hb, rfl, rfl⟩ := hs
    have hsub : ∀ o' w', submissions (M := M) (⟨w, e, .transfer src dst t n, o', w'⟩ :: log) = submissions log := by
      intro o' w'; rw [submissions_cons]; rfl
    refine ⟨hi.mod, hi.daoNe, hi.modNe, hi.good, hi.sound, ?_, ?_, ?_, ?_, hi.comp.other rfl, hi.payers⟩
    · rw [hsub]; exact hi.subs
    · rw [hsub]; exact hi.wf
    · rw [hsub]; exact hi.le
    · rw [hsub]; exact hi.ok

theorem inv_reach (L : LawfulBy M inv) {w : World M} {b : Block} {log : List (Event M)}
    (h : (sys M).Reach w b log) : Inv M inv w log := by
  refine Sys.Reach.induct (P := fun w _ log => Inv M inv w log) ?_ ?_ h
  · intro b s h0; exact inv_init L h0
  · intro s b l env call out s' _ ih _ hs; exact inv_step L ih hs

end Verif.PrePropose
