import Verif.Spec.FundedDao
import Verif.Props.FundDistributor
import Verif.Proofs.WholeDao
/-!
# A fund distributor with its voting module: the parts
-/

namespace Verif.FundedDao
open Verif Verif.Spec.FundedDao
open Verif.WholeDao (VotingModule run_blocks)
open Verif.Spec.WholeDao (Lawful)

variable {S E C O : Type} {V : VotingModule S E C O} {w w' w0 : World S} {b b' b0 : Block} {log : List (Event S E C)}

theorem dist_effect {c : FundDistributor.Call} {out : List Pay} (h : step V w b (.dist c) = .ok (w', out)) :
    FundDistributor.step w.dist (distEnv V w.vote b) c = .ok (w'.dist, out) ∧ w'.vote = w.vote := by
  simp only [step, bind_ok, Except.ok.injEq, Prod.mk.injEq] at h
  obtain ⟨r, h1, h2, h3⟩ := h
  obtain ⟨r1, r2⟩ := r
  simp only at h2 h3
  rw [← h2, ← h3]
  exact ⟨h1, rfl⟩

theorem vote_effect {e : E} {c : C} {out : List Pay} (h : step V w b (.vote e c) = .ok (w', out)) :
    V.sys.block e = b ∧ (∃ o, V.sys.step w.vote e c = .ok (w'.vote, o)) ∧ w'.dist = w.dist := by
  simp only [step, bind_ok, require_ok, decide_eq_true_eq, Except.ok.injEq, Prod.mk.injEq] at h
  obtain ⟨_, h0, r, h1, h2, h3⟩ := h
  obtain ⟨r1, r2⟩ := r
  simp only at h2
  rw [← h2]
  exact ⟨h0, ⟨r2, h1⟩, rfl⟩

theorem vote_run (h : (sys V).Run w b log w' b') {b1 : Block} (hb : b1.le b) :
    ∃ l b2, V.sys.Run w.vote b1 l w'.vote b2 ∧ b2.le b' ∧ ∀ e ∈ l, ∃ ev ∈ log, V.sys.block e.env = ev.env := by
  induction h with
  | refl => exact ⟨[], b1, .refl, hb, by simp⟩
  | @step s1 s2 b3 log env call out hr hb3 hs ih =>
    obtain ⟨l, b2, h1, h2, h3⟩ := ih
    have old : ∀ e ∈ l, ∃ ev ∈ (⟨s1, env, call, out, s2⟩ : Event S E C) :: log, V.sys.block e.env = ev.env :=
      fun e he => let ⟨ev, hev, hx⟩ := h3 e he; ⟨ev, List.mem_cons_of_mem _ hev, hx⟩
    cases call with
    | dist c =>
      rw [(dist_effect hs).2]
      exact ⟨l, b2, h1, Block.le_trans h2 hb3, old⟩
    | vote ve c =>
      obtain ⟨hbl, ⟨o, hst⟩, _⟩ := vote_effect hs
      have hle : b2.le (V.sys.block ve) := by rw [hbl]; exact Block.le_trans h2 hb3
      refine ⟨_, _, .step h1 hle hst, by rw [hbl]; exact Block.le_refl _, ?_⟩
      intro e he
      rcases List.mem_cons.1 he with rfl | he
      · exact ⟨_, List.mem_cons_self, hbl⟩
      · exact old e he

theorem vote_reach (hi : Init V b0 w0) (hr : (sys V).Run w0 b0 log w b) : ∃ l b1, V.sys.Reach w.vote b1 l ∧ b1.le b := by
  obtain ⟨_, b1, l, h1, h2⟩ := hi
  obtain ⟨l', b2, h3, h4, _⟩ := vote_run hr h2
  exact ⟨_, _, h1.run h3, h4⟩

/-- From a state of a history on, the answers for heights up to its block do not change. -/
theorem vote_later (hV : Lawful V) (hi : Init V b0 w0) (hr : (sys V).Run w0 b0 log w b)
    {log' : List (Event S E C)} (hr' : (sys V).Run w b log' w' b') {x : Nat}
    (hx : ∀ e ∈ log', x ≤ e.env.height) :
    (∀ a, V.power w'.vote a x = V.power w.vote a x) ∧ V.total w'.vote x = V.total w.vote x := by
  obtain ⟨l, b2, h5, h6⟩ := vote_reach hi hr
  obtain ⟨l', b3, h7, _, h8⟩ := vote_run hr' h6
  refine hV.stable h5 h7 ?_
  intro e he
  obtain ⟨ev', hev', hbl⟩ := h8 e he
  rw [hbl]
  exact hx ev' hev'

theorem vote_agree (hV : Lawful V) (hi : Init V b0 w0) (hr : (sys V).Run w0 b0 log w b) :
    ∀ ev ∈ log, ∀ x, x ≤ ev.env.height →
      (∀ a, V.power w.vote a x = V.power ev.pre.vote a x) ∧ V.total w.vote x = V.total ev.pre.vote x := by
  intro ev hev x hx
  obtain ⟨l1, l2, b1, _, h1, h2, h3, h4⟩ := hr.event ev hev
  have hrun : (sys V).Run ev.pre b1 (l2 ++ [ev]) w b := (Sys.Run.step .refl h2 h3).append h4
  refine vote_later hV hi h1 hrun ?_
  intro e he
  rcases List.mem_append.1 he with hm | hm
  · exact Nat.le_trans hx (run_blocks h4 e hm).1
  · rw [List.mem_singleton.1 hm]; exact hx

theorem dist_run (hr : (sys V).Run w0 b0 log w b) :
    ∃ b1, b1.le b ∧ FundDistributor.sys.Run w0.dist b0 (distLog V log) w.dist b1 := by
  induction hr with
  | refl => exact ⟨_, Block.le_refl _, .refl⟩
  | @step s1 s2 b3 log env call out hr hb3 hs ih =>
    obtain ⟨b1, h1, h2⟩ := ih
    have hb3' : b3.le env := hb3
    cases call with
    | dist c =>
      have hst := (dist_effect hs).1
      refine ⟨env, Block.le_refl _, ?_⟩
      exact Sys.Run.step (M := FundDistributor.sys) (env := distEnv V s1.vote env) h2 (Block.le_trans h1 hb3') hst
    | vote ve c =>
      rw [(vote_effect hs).2.2]
      exact ⟨b1, Block.le_trans h1 hb3', h2⟩

theorem dist_init (hi : Init V b0 w0) : FundDistributor.sys.init b0 w0.dist := by
  obtain ⟨⟨h, d, hi⟩, _⟩ := hi
  exact ⟨distEnv V w0.vote b0, h, d, rfl, hi⟩

theorem total_init (hi : Init V b0 w0) : w0.dist.c.totalPower = V.total w0.vote b0.height ∧ V.total w0.vote b0.height ≠ 0 := by
  obtain ⟨⟨h, d, hi⟩, _⟩ := hi
  simp only [FundDistributor.instantiate, bind_ok, require_ok, decide_eq_true_eq, Except.ok.injEq] at hi
  obtain ⟨_, h1, h2⟩ := hi
  rw [← h2]
  exact ⟨rfl, h1⟩

theorem step_dist_height {w w' : FundDistributor.World} {e : FundDistributor.Env} {c : FundDistributor.Call} {o : List Pay}
    (h : FundDistributor.step w e c = .ok (w', o)) :
    w'.c.totalPower = w.c.totalPower ∧
      (w'.c.distHeight = w.c.distHeight ∨ ∃ a x, c = .redistribute a x ∧ w'.c.distHeight = x) := by
  cases FundDistributor.step_effect h with
  | fund _ c l _ _ _ hd _ ht => exact ⟨ht, .inl hd⟩
  | claim _ a share ts c _ l _ _ _ _ _ _ hc _ =>
    obtain ⟨s1, _, s3, _⟩ := hc.same
    exact ⟨s3, .inl s1⟩
  | redistribute a x => exact ⟨rfl, .inr ⟨a, x, rfl, rfl⟩⟩
  | transfer => exact ⟨rfl, .inl rfl⟩

/-- The heights in force are not ahead of the block. -/
theorem height_le (h0 : w0.dist.c.distHeight ≤ b0.height) (hr : (sys V).Run w0 b0 log w b) (hn : NoneAhead log) :
    w.dist.c.distHeight ≤ b.height ∧ (∀ e ∈ log, e.pre.dist.c.distHeight ≤ e.env.height) ∧
      w.dist.c.totalPower = w0.dist.c.totalPower := by
  induction hr with
  | refl => exact ⟨h0, by simp, rfl⟩
  | @step s1 s2 b3 log env call out hr hb3 hs ih =>
    obtain ⟨i1, i2, i3⟩ := ih (fun e he => hn e (List.mem_cons_of_mem _ he))
    have hb3' : b3.le env := hb3
    have h1 : s1.dist.c.distHeight ≤ env.height := Nat.le_trans i1 hb3'.1
    have key : s2.dist.c.totalPower = s1.dist.c.totalPower ∧ s2.dist.c.distHeight ≤ env.height := by
      cases call with
      | dist c =>
        obtain ⟨h2, h3⟩ := step_dist_height (dist_effect hs).1
        refine ⟨h2, ?_⟩
        rcases h3 with h3 | ⟨a, x, rfl, h3⟩
        · rw [h3]; exact h1
        · rw [h3]; exact hn _ List.mem_cons_self a x rfl
      | vote ve c =>
        rw [(vote_effect hs).2.2]
        exact ⟨rfl, h1⟩
    refine ⟨key.2, ?_, key.1.trans i3⟩
    intro e he
    rcases List.mem_cons.1 he with rfl | he
    · exact h1
    · exact i2 e he

theorem mem_distLog {e : Ev FundDistributor.World FundDistributor.Env FundDistributor.Call (List Pay)}
    (h : e ∈ distLog V log) : ∃ ev ∈ log, ev.call = .dist e.call ∧ e.pre = ev.pre.dist ∧
      e.env = distEnv V ev.pre.vote ev.env := by
  induction log with
  | nil => simp [distLog] at h
  | cons ev rest ih =>
    unfold distLog at h
    split at h
    · rename_i c hc
      rcases List.mem_cons.1 h with rfl | h
      · exact ⟨ev, List.mem_cons_self, hc, rfl, rfl⟩
      · obtain ⟨ev', h1, h2⟩ := ih h
        exact ⟨ev', List.mem_cons_of_mem _ h1, h2⟩
    · obtain ⟨ev', h1, h2⟩ := ih h
      exact ⟨ev', List.mem_cons_of_mem _ h1, h2⟩

theorem distLog_mem {ev : Event S E C} {c : FundDistributor.Call} (h : ev ∈ log) (hc : ev.call = .dist c) :
    ⟨ev.pre.dist, distEnv V ev.pre.vote ev.env, c, ev.out, ev.post.dist⟩ ∈ distLog V log := by
  induction log with
  | nil => simp at h
  | cons ev' rest ih =>
    unfold distLog
    rcases List.mem_cons.1 h with rfl | h
    · simp only [hc]
      exact List.mem_cons_self
    · split
      · exact List.mem_cons_of_mem _ (ih h)
      · exact ih h

/-- The answers the distributor gets are those the voting module gives at the end. -/
theorem answers (hV : Lawful V) (hi : Init V b0 w0) (h0 : w0.dist.c.distHeight ≤ b0.height)
    (hr : (sys V).Run w0 b0 log w b) (hn : NoneAhead log) :
    Spec.FundDistributor.Answers (fun h a => V.power w.vote a h) (distLog V log) := by
  intro e he a
  obtain ⟨ev, hev, _, h1, h2⟩ := mem_distLog he
  rw [h1, h2]
  exact ((vote_agree hV hi hr ev hev _ ((height_le h0 hr hn).2.1 ev hev)).1 a).symm

/-- The total of the block of the creation. -/
theorem total_now (hV : Lawful V) (hi : Init V b0 w0) (hr : (sys V).Run w0 b0 log w b) :
    w0.dist.c.totalPower = V.total w.vote b0.height := by
  rw [(total_init hi).1]
  refine ((vote_later hV hi .refl hr ?_).2).symm
  intro e he
  exact (run_blocks hr e he).1

end Verif.FundedDao
