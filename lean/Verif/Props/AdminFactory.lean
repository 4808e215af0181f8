import Verif.Spec.AdminFactory
/-!
# C78: cw-admin-factory
-/

namespace Verif.AdminFactory
open Spec.AdminFactory

/-- What a step does. -/
inductive Effect (w : World) (e : Env) : Call → World → Option Addr → Prop where
  | begin {k a bal bal'} (hs : e.sender ≠ w.self) (ha : ∀ o, w.c.admin = some o → o = e.sender)
      (hn : w.admins.get a = none) (hns : a ≠ w.self) (hb : pullCoins w.self e.sender e.funds w.bal = .ok bal)
      (hb' : pullCoins a w.self e.funds bal = .ok bal') :
      Effect w e (.begin k a) { w with c := saveExpect w.c k, bal := bal', admins := w.admins.set a (some w.self),
                                       stack := ⟨a, k⟩ :: w.stack } none
  | finish {f rest c} (hst : w.stack = f :: rest) (hc : checkExpect w.c f.addr f.kind = .ok c)
      (ha : w.admins.get f.addr = some (some w.self)) :
      Effect w e .finish { w with c := c, stack := rest, admins := w.admins.set f.addr (some f.addr) } (some f.addr)
  | setAdmin {c new} (hs : e.sender ≠ w.self) (ha : w.admins.get c = some (some e.sender)) :
      Effect w e (.setAdmin c new) { w with admins := w.admins.set c new } none
  | transfer {t dst n bal} (hs : e.sender ≠ w.self) (hb : w.bal.move (t, e.sender) (t, dst) n = .ok bal) :
      Effect w e (.transfer t dst n) { w with bal := bal } none
  | other {c a} (hn : w.admins.get c = none) : Effect w e (.other c a) { w with admins := w.admins.set c a } none

theorem updateAdmin_ok {w w' : World} {s c : Addr} {n : Option Addr} :
    updateAdmin w s c n = .ok w' ↔ w.admins.get c = some (some s) ∧ w' = { w with admins := w.admins.set c n } := by
  simp only [updateAdmin, bind_ok, orErr_ok, require_ok, decide_eq_true_eq, Except.ok.injEq]
  constructor
  · rintro ⟨a, h, _, rfl, rfl⟩; exact ⟨h, rfl⟩
  · rintro ⟨h, rfl⟩; exact ⟨_, h, (), rfl, rfl⟩

theorem step_effect {w : World} {e : Env} {call : Call} {w' : World} {out : Option Addr}
    (h : step w e call = .ok (w', out)) : Effect w e call w' out := by
  cases call with
  | begin k a =>
    simp only [step, AdminFactory.begin, exec, bind_ok, require_ok, Bool.and_eq_true, decide_eq_true_eq,
      Except.ok.injEq, Prod.mk.injEq] at h
    obtain ⟨_, ⟨_, hs, bal, hb, c, ⟨_, ha, rfl⟩, _, ⟨hn, hns⟩, bal', hb', rfl⟩, rfl, rfl⟩ := h
    refine .begin hs ?_ hn hns hb hb'
    intro o ho
    rw [ho] at ha
    simpa using ha
  | finish =>
    simp only [step, AdminFactory.finish] at h
    split at h
    · cases h
    · rename_i f rest hst
      simp only [reply, bind_ok, Except.ok.injEq, Prod.mk.injEq, updateAdmin_ok] at h
      obtain ⟨r, ⟨c, hc, rfl⟩, w1, ⟨ha, rfl⟩, rfl, rfl⟩ := h
      exact .finish hst hc ha
  | setAdmin c new =>
    simp only [step, bind_ok, require_ok, decide_eq_true_eq, Except.ok.injEq, Prod.mk.injEq, updateAdmin_ok] at h
    obtain ⟨_, hs, w1, ⟨ha, rfl⟩, rfl, rfl⟩ := h
    exact .setAdmin hs ha
  | transfer t dst n =>
    simp only [step, bind_ok, require_ok, decide_eq_true_eq, Except.ok.injEq, Prod.mk.injEq] at h
    obtain ⟨_, hs, bal, hb, rfl, rfl⟩ := h
    exact .transfer hs hb
  | other c a =>
    simp only [step, bind_ok, require_ok, decide_eq_true_eq, Except.ok.injEq, Prod.mk.injEq] at h
    obtain ⟨_, hn, rfl, rfl⟩ := h
    exact .other hn

theorem checkExpect_ok {s c : State} {a : Addr} {k : Kind} (h : checkExpect s a k = .ok c) :
    c.admin = s.admin ∧ (∀ x, k = .two x → c.expect = none) ∧ (k = .plain → c.expect = s.expect) ∧
      ∀ x y, k = .two x → s.expect = some y → a = y := by
  unfold checkExpect at h
  split at h
  · simp only [Except.ok.injEq] at h; subst h
    exact ⟨rfl, (fun x hx => by cases hx), (fun _ => rfl), (fun x y hx => by cases hx)⟩
  · split at h
    · rename_i hn
      simp only [Except.ok.injEq] at h; subst h
      exact ⟨rfl, fun _ _ => hn, fun _ => rfl, fun x y _ hy => by rw [hn] at hy; cases hy⟩
    · rename_i a' hs
      simp only [bind_ok, require_ok, decide_eq_true_eq, Except.ok.injEq] at h
      obtain ⟨_, rfl, rfl⟩ := h
      exact ⟨rfl, fun _ _ => rfl, (fun hk => by cases hk), fun x y _ hy => by
        rw [hs, Option.some.injEq] at hy; exact hy⟩

theorem saveExpect_admin (s : State) (k : Kind) : (saveExpect s k).admin = s.admin := by
  unfold saveExpect; split <;> rfl

/-- What holds in every reachable world: contracts under way have the factory as their admin, and an expectation is only
kept while an instantiation with a predictable address is under way. -/
structure Inv (w : World) : Prop where
  under : ∀ f ∈ w.stack, w.admins.get f.addr = some (some w.self)
  nodup : (w.stack.map Frame.addr).Nodup
  expect : w.c.expect ≠ none → ∃ f ∈ w.stack, ∃ x, f.kind = .two x

theorem inv_init {b : Block} {w : World} (h : sys.init b w) : Inv w := by
  obtain ⟨⟨a, hc⟩, hs, _⟩ := h
  refine ⟨by rw [hs]; simp, by rw [hs]; simp, ?_⟩
  rw [hc]; intro hn; exact absurd rfl hn

theorem inv_effect {w : World} {e : Env} {call : Call} {w' : World} {out : Option Addr} (h : Effect w e call w' out)
    (hi : Inv w) : Inv w' := by
  cases h with
  | @begin k a bal bal' hs ha hn hns hb hb' =>
    refine ⟨?_, ?_, ?_⟩
    · intro f hf
      show AMap.get (AMap.set _ _ _) _ = _
      rcases List.mem_cons.1 hf with rfl | hf
      · exact AMap.get_set_self ..
      · have := hi.under f hf
        rw [AMap.get_set_ne _ _ (by rintro rfl; rw [hn] at this; cases this)]
        exact this
    · show (List.map _ (_ :: _)).Nodup
      rw [List.map_cons, List.nodup_cons]
      refine ⟨?_, hi.nodup⟩
      intro hm
      obtain ⟨f, hf, he⟩ := List.mem_map.1 hm
      have := hi.under f hf
      rw [he, hn] at this; cases this
    · show (saveExpect w.c k).expect ≠ none → _
      intro hne
      unfold saveExpect at hne
      split at hne
      · exact ⟨_, List.mem_cons_self .., _, rfl⟩
      · obtain ⟨f, hf, hx⟩ := hi.expect hne
        exact ⟨f, List.mem_cons_of_mem _ hf, hx⟩
  | @finish f rest c hst hc ha =>
    have hno := hi.nodup
    rw [hst, List.map_cons, List.nodup_cons] at hno
    refine ⟨?_, hno.2, ?_⟩
    · intro g hg
      show AMap.get (AMap.set _ _ _) _ = _
      rw [AMap.get_set_ne _ _ (by
        intro he; exact hno.1 (by rw [he]; exact List.mem_map_of_mem hg))]
      exact hi.under g (by rw [hst]; exact List.mem_cons_of_mem _ hg)
    · show c.expect ≠ none → _
      intro hne
      obtain ⟨_, h2, h3, _⟩ := checkExpect_ok hc
      have hk : f.kind = .plain := by
        cases hk : f.kind with
        | plain => rfl
        | two x => exact absurd (h2 x hk) hne
      rw [h3 hk] at hne
      obtain ⟨g, hg, x, hx⟩ := hi.expect hne
      rw [hst] at hg
      rcases List.mem_cons.1 hg with rfl | hg
      · rw [hk] at hx; cases hx
      · exact ⟨g, hg, x, hx⟩
  | @setAdmin c new hs ha =>
    refine ⟨?_, hi.nodup, hi.expect⟩
    intro f hf
    show AMap.get (AMap.set _ _ _) _ = _
    have := hi.under f hf
    rw [AMap.get_set_ne _ _ (by
      intro he; rw [he, this] at ha; simp only [Option.some.injEq] at ha; exact hs ha.symm)]
    exact this
  | transfer hs hb => exact ⟨hi.under, hi.nodup, hi.expect⟩
  | @other c a hn =>
    refine ⟨?_, hi.nodup, hi.expect⟩
    intro f hf
    show AMap.get (AMap.set _ _ _) _ = _
    have := hi.under f hf
    rw [AMap.get_set_ne _ _ (by rintro rfl; rw [hn] at this; cases this)]
    exact this

theorem inv_reach {w : World} {b : Block} {log : List Event} (h : sys.Reach w b log) : Inv w :=
  Sys.Reach.induct (M := sys) (P := fun w _ _ => Inv w) (fun _ _ h => inv_init h)
    (fun _ _ _ _ _ _ _ _ hi _ hs => inv_effect (step_effect hs) hi) h

/-- C78. At the end of a transaction every contract created through the factory is its own admin, unless it has itself
named another. -/
theorem C78_self {w : World} {b : Block} {log : List Event} (h : sys.Reach w b log) (hs : Settled w) {a : Addr}
    {ev : Event} (hev : ev ∈ log) (ha : Asked a ev) :
    w.admins.get a = some (some a) ∨ ∃ ev ∈ log, GaveUp a ev := by
  have key : (∃ ev ∈ log, Asked a ev) → w.admins.get a ≠ none ∧
      ((∃ f ∈ w.stack, f.addr = a) ∨ w.admins.get a = some (some a) ∨ ∃ ev ∈ log, GaveUp a ev) := by
    refine Sys.Reach.induct (M := sys) (P := fun w _ log => (∃ ev ∈ log, Asked a ev) → w.admins.get a ≠ none ∧
      ((∃ f ∈ w.stack, f.addr = a) ∨ w.admins.get a = some (some a) ∨ ∃ ev ∈ log, GaveUp a ev)) ?_ ?_ h
    · rintro b w _ ⟨ev, hev, _⟩; cases hev
    · intro w b log e call out w' hr ih _ hst
      have hi := inv_reach hr
      have he := step_effect hst
      rintro ⟨ev, hev, hask⟩
      have old : call ≠ .begin (match call with | .begin k _ => k | _ => .plain) a → ∃ ev ∈ log, Asked a ev := by
        intro hne
        rcases List.mem_cons.1 hev with rfl | hev
        · obtain ⟨k, hk⟩ := hask
          simp only at hk; subst hk
          exact absurd rfl hne
        · exact ⟨ev, hev, hask⟩
      have keep : (∃ ev ∈ log, GaveUp a ev) → ∃ ev ∈ (⟨w, e, call, out, w'⟩ :: log : List Event), GaveUp a ev :=
        fun ⟨x, hx, hg⟩ => ⟨x, List.mem_cons_of_mem _ hx, hg⟩
      cases he with
      | @begin k x bal bal' hs ha hn hns hb hb' =>
        by_cases hxa : x = a
        · subst hxa
          exact ⟨by show AMap.get (AMap.set _ _ _) _ ≠ _; rw [AMap.get_set_self]; simp,
            Or.inl ⟨_, List.mem_cons_self .., rfl⟩⟩
        · obtain ⟨i1, i2⟩ := ih (old (by intro he; cases he; exact hxa rfl))
          refine ⟨by show AMap.get (AMap.set _ _ _) _ ≠ _; rw [AMap.get_set_ne _ _ hxa]; exact i1, ?_⟩
          rcases i2 with ⟨f, hf, hfa⟩ | i2 | i2
          · exact Or.inl ⟨f, List.mem_cons_of_mem _ hf, hfa⟩
          · exact Or.inr (Or.inl (by show AMap.get (AMap.set _ _ _) _ = _; rw [AMap.get_set_ne _ _ hxa]; exact i2))
          · exact Or.inr (Or.inr (keep i2))
      | @finish f rest c hstk hc hadm =>
        obtain ⟨i1, i2⟩ := ih (old (by intro he; cases he))
        by_cases hfa : f.addr = a
        · subst hfa
          exact ⟨by show AMap.get (AMap.set _ _ _) _ ≠ _; rw [AMap.get_set_self]; simp,
            Or.inr (Or.inl (AMap.get_set_self ..))⟩
        · refine ⟨by show AMap.get (AMap.set _ _ _) _ ≠ _; rw [AMap.get_set_ne _ _ hfa]; exact i1, ?_⟩
          rcases i2 with ⟨g, hg, hga⟩ | i2 | i2
          · rw [hstk] at hg
            rcases List.mem_cons.1 hg with rfl | hg
            · exact absurd hga hfa
            · exact Or.inl ⟨g, hg, hga⟩
          · exact Or.inr (Or.inl (by show AMap.get (AMap.set _ _ _) _ = _; rw [AMap.get_set_ne _ _ hfa]; exact i2))
          · exact Or.inr (Or.inr (keep i2))
      | @setAdmin c new hsn hadm =>
        obtain ⟨i1, i2⟩ := ih (old (by intro he; cases he))
        by_cases hca : c = a
        · subst hca
          refine ⟨by show AMap.get (AMap.set _ _ _) _ ≠ _; rw [AMap.get_set_self]; simp, ?_⟩
          rcases i2 with ⟨g, hg, rfl⟩ | i2 | i2
          · exact Or.inl ⟨g, hg, rfl⟩
          · rw [i2] at hadm
            simp only [Option.some.injEq] at hadm
            exact Or.inr (Or.inr ⟨_, List.mem_cons_self .., _, rfl, hadm.symm⟩)
          · exact Or.inr (Or.inr (keep i2))
        · refine ⟨by show AMap.get (AMap.set _ _ _) _ ≠ _; rw [AMap.get_set_ne _ _ hca]; exact i1, ?_⟩
          rcases i2 with i2 | i2 | i2
          · exact Or.inl i2
          · exact Or.inr (Or.inl (by show AMap.get (AMap.set _ _ _) _ = _; rw [AMap.get_set_ne _ _ hca]; exact i2))
          · exact Or.inr (Or.inr (keep i2))
      | transfer hs hb =>
        obtain ⟨i1, i2⟩ := ih (old (by intro he; cases he))
        refine ⟨i1, ?_⟩
        rcases i2 with i2 | i2 | i2
        · exact Or.inl i2
        · exact Or.inr (Or.inl i2)
        · exact Or.inr (Or.inr (keep i2))
      | @other c x hn =>
        obtain ⟨i1, i2⟩ := ih (old (by intro he; cases he))
        have hca : c ≠ a := by rintro rfl; exact i1 hn
        refine ⟨by show AMap.get (AMap.set _ _ _) _ ≠ _; rw [AMap.get_set_ne _ _ hca]; exact i1, ?_⟩
        rcases i2 with i2 | i2 | i2
        · exact Or.inl i2
        · exact Or.inr (Or.inl (by show AMap.get (AMap.set _ _ _) _ = _; rw [AMap.get_set_ne _ _ hca]; exact i2))
        · exact Or.inr (Or.inr (keep i2))
  rcases (key ⟨ev, hev, ha⟩).2 with ⟨f, hf, _⟩ | h
  · rw [hs] at hf; cases hf
  · exact h

/-- The admin of the factory does not change, and only they ask it for contracts. -/
theorem admin_run {w0 w : World} {b0 b : Block} {log : List Event} (h : sys.Run w0 b0 log w b) :
    w.c.admin = w0.c.admin ∧ ∀ ev ∈ log, ∀ a, Asked a ev → ∀ o, w0.c.admin = some o → ev.env.sender = o := by
  induction h with
  | refl => exact ⟨rfl, fun ev hev => by cases hev⟩
  | @step w1 w2 b1 l e call out hr hb hs ih =>
    have he := step_effect hs
    constructor
    · rw [← ih.1]
      cases he with
      | begin => exact saveExpect_admin _ _
      | finish _ hc _ => exact (checkExpect_ok hc).1
      | setAdmin => rfl
      | transfer => rfl
      | other => rfl
    · intro ev hev a ha o ho
      rcases List.mem_cons.1 hev with rfl | hev
      · obtain ⟨k, hk⟩ := ha
        simp only at hk
        subst hk
        cases he with
        | begin hs hadm => rw [← ih.1] at ho; exact (hadm o ho).symm
      · exact ih.2 ev hev a ha o ho

/-- C78. Who may use the factory is fixed when it is created: with an admin, only the admin. -/
theorem C78_admin {w0 w : World} {b0 b : Block} {log : List Event} {admin : Option Addr} (h0 : w0.c = instantiate admin)
    (h : sys.Run w0 b0 log w b) :
    w.c.admin = admin ∧ ∀ ev ∈ log, ∀ a, Asked a ev → ∀ o, admin = some o → ev.env.sender = o := by
  have ha : w0.c.admin = admin := by rw [h0]; rfl
  rw [← ha]
  exact admin_run h

/-- C78. No expectation outlives the transaction it came with. -/
theorem C78_expect_cleared {w : World} {b : Block} {log : List Event} (h : sys.Reach w b log) (hs : Settled w) :
    w.c.expect = none := by
  cases hx : w.c.expect with
  | none => rfl
  | some x =>
    obtain ⟨f, hf, _⟩ := (inv_reach h).expect (by rw [hx]; simp)
    rw [hs] at hf; cases hf

/-- From the moment a contract is asked for at an expected address. -/
def Pending (a x : Addr) (w : World) : Prop :=
  (∃ p r k, w.stack = p ++ ⟨a, .two k⟩ :: r ∧ (∀ f ∈ p, f.kind = .plain) ∧ w.c.expect = some x) ∨
    ((∀ f ∈ w.stack, f.addr ≠ a) ∧ w.admins.get a ≠ none)

theorem pending_run {w1 w2 : World} {b1 b2 : Block} {l : List Event} {a x : Addr} (hr : sys.Run w1 b1 l w2 b2)
    (hi : Inv w1) (h : Pending a x w1) (hno : ∀ ev ∈ l, ¬ Uses2 ev) : Inv w2 ∧ Pending a x w2 := by
  induction hr with
  | refl => exact ⟨hi, h⟩
  | @step w3 w4 b3 l e call out hr3 hb hs ih =>
    obtain ⟨i3, p3⟩ := ih (fun ev hev => hno ev (List.mem_cons_of_mem _ hev))
    have hn := hno _ (List.mem_cons_self ..)
    have he := step_effect hs
    refine ⟨inv_effect he i3, ?_⟩
    clear hs
    have ne_none : ∀ {c : Addr} {v : Option Addr}, w3.admins.get a ≠ none → AMap.get (w3.admins.set c v) a ≠ none := by
      intro c v hg
      rw [AMap.get_set]
      split
      · simp
      · exact hg
    cases he with
    | @begin k c bal bal' hs ha hnone hns hb hb' =>
      have hk : k = .plain := by
        cases k with
        | plain => rfl
        | two y => exact absurd ⟨y, c, rfl⟩ hn
      subst hk
      rcases p3 with ⟨p, r, k, h1, h2, h3⟩ | ⟨h1, h2⟩
      · refine Or.inl ⟨⟨c, .plain⟩ :: p, r, k, ?_, ?_, h3⟩
        · show _ :: _ = _; rw [h1]; rfl
        · intro f hf
          rcases List.mem_cons.1 hf with rfl | hf
          · rfl
          · exact h2 f hf
      · refine Or.inr ⟨?_, ne_none h2⟩
        intro f hf
        rcases List.mem_cons.1 hf with rfl | hf
        · rintro rfl; exact h2 hnone
        · exact h1 f hf
    | @finish f rest c hst hc hadm =>
      rcases p3 with ⟨p, r, k, h1, h2, h3⟩ | ⟨h1, h2⟩
      · rw [hst] at h1
        cases p with
        | nil =>
          simp only [List.nil_append, List.cons.injEq] at h1
          obtain ⟨rfl, rfl⟩ := h1
          have hnd := i3.nodup
          rw [hst, List.map_cons, List.nodup_cons] at hnd
          refine Or.inr ⟨?_, ?_⟩
          · intro g hg he; exact hnd.1 (List.mem_map.2 ⟨g, hg, he⟩)
          · show AMap.get (AMap.set _ _ _) _ ≠ _; rw [AMap.get_set_self]; simp
        | cons g p =>
          simp only [List.cons_append, List.cons.injEq] at h1
          obtain ⟨rfl, h1⟩ := h1
          refine Or.inl ⟨p, r, k, h1, fun q hq => h2 q (List.mem_cons_of_mem _ hq), ?_⟩
          show c.expect = _
          rw [(checkExpect_ok hc).2.2.1 (h2 f (List.mem_cons_self ..)), h3]
      · refine Or.inr ⟨?_, ne_none h2⟩
        intro g hg
        exact h1 g (by rw [hst]; exact List.mem_cons_of_mem _ hg)
    | setAdmin hs ha =>
      rcases p3 with h1 | ⟨h1, h2⟩
      · exact Or.inl h1
      · exact Or.inr ⟨h1, ne_none h2⟩
    | transfer hs hb => exact p3
    | other hn =>
      rcases p3 with h1 | ⟨h1, h2⟩
      · exact Or.inl h1
      · exact Or.inr ⟨h1, ne_none h2⟩

/-- C78, in part. A contract that was asked for at an expected address has that address when its creation ends, if the
factory was not asked for another one with a predictable address in between. What is missing is requests made by the
contract while it is created, see `C78_expect_witness`. -/
theorem C78_expect_partial {w : World} {b : Block} {log l2 l1 l0 : List Event} {eb ef : Event} {a x : Addr}
    (h : sys.Reach w b log) (hlog : log = l2 ++ ef :: (l1 ++ eb :: l0)) (hb : eb.call = .begin (.two (some x)) a)
    (hf : ef.out = some a) (hno : ∀ ev ∈ l1, ¬ Uses2 ev) : a = x := by
  subst hlog
  obtain ⟨b0, w0, h0, hr⟩ := h
  obtain ⟨wf, bf, hrf, _⟩ := hr.split
  cases hrf with
  | @step wf' _ _ _ ee ec eo hrf hbf hsf =>
  obtain ⟨wb, bb, hrb, hr1⟩ := hrf.split
  cases hrb with
  | @step wb' _ _ _ fe fc fo hrb hbb hsb =>
  simp only at hb hf
  subst hb hf
  have hib := inv_reach ⟨b0, w0, h0, hrb⟩
  have heb : Effect wb' fe _ wb fo := step_effect (w := wb') (e := fe) (call := .begin (.two (some x)) a) hsb
  have hp : Pending a x wb := by
    cases heb with
    | begin => exact Or.inl ⟨[], _, _, rfl, by simp, rfl⟩
  obtain ⟨i2, p2⟩ := pending_run hr1 (inv_effect heb hib) hp hno
  have hef := step_effect hsf
  clear hsf hsb heb
  cases hef with
  | @finish f rest c hst hc hadm =>
    rcases p2 with ⟨p, r, k, h1, h2, h3⟩ | ⟨h1, _⟩
    · rw [hst] at h1
      have hnd := i2.nodup
      rw [hst] at hnd
      cases p with
      | nil =>
        simp only [List.nil_append, List.cons.injEq] at h1
        have hk : f.kind = .two k := by rw [h1.1]
        exact (checkExpect_ok hc).2.2.2 _ _ hk h3
      | cons g p =>
        simp only [List.cons_append, List.cons.injEq] at h1
        obtain ⟨rfl, rfl⟩ := h1
        rw [List.map_cons, List.nodup_cons] at hnd
        exact absurd (List.mem_map.2 ⟨_, List.mem_append_right _ (List.mem_cons_self ..), rfl⟩) hnd.1
    · exact absurd rfl (h1 f (by rw [hst]; exact List.mem_cons_self ..))

/-- C78, the finding the other way round. While a contract is expected at an address, the factory refuses to complete any
other one with a predictable address that comes without an expectation. -/
theorem C78_inner_blocked {w : World} {e : Env} {a x : Addr} {rest : List Frame} (hst : w.stack = ⟨a, .two none⟩ :: rest)
    (hx : w.c.expect = some x) (hne : a ≠ x) (w' : World) (out : Option Addr) : step w e .finish ≠ .ok (w', out) := by
  intro h
  have he := step_effect h
  clear h
  cases he with
  | finish hst' hc =>
    rw [hst] at hst'
    simp only [List.cons.injEq] at hst'
    obtain ⟨rfl, rfl⟩ := hst'
    exact hne ((checkExpect_ok hc).2.2.2 _ _ rfl hx)

/-- C78. The factory passes on the coins it is sent and keeps what others give it. -/
theorem C78_funds {w : World} {b : Block} {log : List Event} (h : sys.Reach w b log) {ev : Event} (hev : ev ∈ log)
    (t : Token) : holds ev.post t = holds ev.pre t +
      (match ev.call with | .transfer c dst n => if c = t ∧ dst = ev.pre.self then n else 0 | _ => 0) := by
  obtain ⟨b0, w0, h0, hr⟩ := h
  obtain ⟨_, _, _, _, _, _, hs, _⟩ := hr.event ev hev
  have he := step_effect hs
  unfold holds
  generalize ev.pre = w1, ev.env = e, ev.call = call, ev.post = w2, ev.out = out at he ⊢
  cases he with
  | @begin k a bal bal' hs ha hn hns hb hb' =>
    obtain ⟨p1, _, _, _⟩ := pullCoins_get hb hs t
    obtain ⟨_, q2, q3, _⟩ := pullCoins_get hb' (Ne.symm hns) t
    show getD0 bal' (t, w1.self) = _
    simp only
    omega
  | finish => rfl
  | setAdmin => rfl
  | @transfer c dst n bal hs hb =>
    have := Ledger.move_other (q := (t, w1.self)) hb (by
      intro he; simp only [Prod.mk.injEq] at he; exact hs he.2.symm)
    show getD0 bal _ = _
    rw [this]
    simp
  | other => rfl

/-- C78. A request by somebody who may make it goes through: the contract is created, and when it is done the factory
completes it, whether no address is expected or the right one. -/
theorem C78_live {w : World} {b : Block} {log : List Event} (h : sys.Reach w b log) (hs : Settled w) (e : Env) (k : Kind)
    (a : Addr) (hself : e.sender ≠ w.self) (hadm : ∀ o, w.c.admin = some o → o = e.sender) (hn : w.admins.get a = none)
    (hns : a ≠ w.self) (hk : k = .plain ∨ k = .two none ∨ k = .two (some a)) (hf : e.funds = []) :
    ∃ w1 w2, step w e (.begin k a) = .ok (w1, none) ∧ step w1 e .finish = .ok (w2, some a) ∧ Settled w2 ∧
      w2.admins.get a = some (some a) := by
  have hx := C78_expect_cleared h hs
  have hstart : step w e (.begin k a) = .ok ({ w with
      c := saveExpect w.c k, admins := w.admins.set a (some w.self), stack := ⟨a, k⟩ :: w.stack }, none) := by
    have ho : (match w.c.admin with | some o => decide (o = e.sender) | none => true) = true := by
      cases hx : w.c.admin with
      | none => rfl
      | some o => simp [hadm o hx]
    simp only [step, AdminFactory.begin, exec, bind_ok, require_ok, Bool.and_eq_true, decide_eq_true_eq, hf]
    exact ⟨_, ⟨(), hself, w.bal, rfl, _, ⟨(), ho, rfl⟩, (), ⟨hn, hns⟩, w.bal, rfl, rfl⟩, rfl⟩
  have hc0 : ({ w.c with expect := none } : State) = w.c := by rw [← hx]
  have hc : checkExpect (saveExpect w.c k) a k = .ok { w.c with expect := none } := by
    rcases hk with rfl | rfl | rfl
    · simp only [checkExpect, saveExpect, hc0]
    · simp only [checkExpect, saveExpect, hx]; rw [hc0]
    · simp [checkExpect, saveExpect, require]
  refine ⟨_, { w with c := { w.c with expect := none },
                      admins := (w.admins.set a (some w.self)).set a (some a) }, hstart, ?_, hs, AMap.get_set_self ..⟩
  simp only [step, AdminFactory.finish, reply, bind_ok, updateAdmin_ok]
  exact ⟨_, ⟨_, hc, rfl⟩, _, ⟨AMap.get_set_self .., rfl⟩, rfl⟩

/-! ## Examples -/

/-- A factory at address 1 that anybody may use. -/
def w0 : World where
  c := instantiate none
  self := 1
  stack := []
  admins := []
  bal := [((.native 5, 10), 1000)]

theorem w0_init : sys.init ⟨0, 0⟩ w0 := ⟨⟨none, rfl⟩, rfl, rfl⟩

/-- A contract at the address it is expected at, created with coins; while it is created it has the factory create
another one. -/
theorem C78_example : ∃ w b log, sys.Reach w b log ∧ Settled w ∧ w.admins.get 60 = some (some 60) ∧
    w.admins.get 61 = some (some 61) ∧ getD0 w.bal (.native 5, 60) = 100 ∧
    log.map (fun ev => ev.out) = [some 60, some 61, none, none] := by
  obtain ⟨w, b, log, hr, hp⟩ := Sys.check_run (M := sys) (s := w0) (b := ⟨0, 0⟩)
    (cs := [({ block := ⟨1, 5⟩, sender := 10, funds := [(5, 100)] }, .begin (.two (some 60)) 60),
      ({ block := ⟨1, 5⟩, sender := 60 }, .begin .plain 61), ({ block := ⟨1, 5⟩, sender := 0 }, .finish),
      ({ block := ⟨1, 5⟩, sender := 0 }, .finish)])
    (p := fun w _ log => decide (w.stack = [] ∧ w.admins.get 60 = some (some 60) ∧ w.admins.get 61 = some (some 61) ∧
      getD0 w.bal (.native 5, 60) = 100 ∧ log.map (fun ev => ev.out) = [some 60, some 61, none, none])) (by decide +kernel)
  have hp := of_decide_eq_true hp
  exact ⟨w, b, log, ⟨_, _, w0_init, hr⟩, hp⟩

/-- C78, the finding. A contract is asked for with the address 50 expected. It comes to be at address 60, and while it is
created it has the factory create another contract where that is expected. The second request takes the place of the
first and is checked off with its own contract, so the first is completed although it is not where it is expected. -/
theorem C78_expect_witness : ∃ w b log, sys.Reach w b log ∧ Settled w ∧
    log.map (fun ev => (ev.call, ev.out)) = [(.finish, some 60), (.finish, some 70), (.begin (.two (some 70)) 70, none),
      (.begin (.two (some 50)) 60, none)] := by
  obtain ⟨w, b, log, hr, hp⟩ := Sys.check_run (M := sys) (s := w0) (b := ⟨0, 0⟩)
    (cs := [({ block := ⟨1, 5⟩, sender := 10 }, .begin (.two (some 50)) 60),
      ({ block := ⟨1, 5⟩, sender := 60 }, .begin (.two (some 70)) 70), ({ block := ⟨1, 5⟩, sender := 0 }, .finish),
      ({ block := ⟨1, 5⟩, sender := 0 }, .finish)])
    (p := fun w _ log => decide (w.stack = [] ∧ log.map (fun ev => (ev.call, ev.out)) = [(.finish, some 60),
      (.finish, some 70), (.begin (.two (some 70)) 70, none), (.begin (.two (some 50)) 60, none)])) (by decide +kernel)
  have hp := of_decide_eq_true hp
  exact ⟨w, b, log, ⟨_, _, w0_init, hr⟩, hp⟩

/-- `C78_inner_blocked` is met: the contract expected at 60 asks for one at 61 without an expectation. -/
theorem C78_blocked_witness : ∃ w b log, sys.Reach w b log ∧ w.stack = [⟨61, .two none⟩, ⟨60, .two (some 60)⟩] ∧
    w.c.expect = some 60 := by
  obtain ⟨w, b, log, hr, hp⟩ := Sys.check_run (M := sys) (s := w0) (b := ⟨0, 0⟩)
    (cs := [({ block := ⟨1, 5⟩, sender := 10 }, .begin (.two (some 60)) 60),
      ({ block := ⟨1, 5⟩, sender := 60 }, .begin (.two none) 61)])
    (p := fun w _ _ => decide (w.stack = [⟨61, .two none⟩, ⟨60, .two (some 60)⟩] ∧ w.c.expect = some 60))
    (by decide +kernel)
  have hp := of_decide_eq_true hp
  exact ⟨w, b, log, ⟨_, _, w0_init, hr⟩, hp⟩

end Verif.AdminFactory
