import Verif.Model.Wormhole
import Verif.Spec.Wormhole
/-!
# The snapshots of a wormhole
-/

namespace Verif.Wormhole

variable {K V σ : Type} [DecidableEq K]

theorem mem_iff {m : Worm K V} (h : AMap.WF m) {q : K × Nat} {v : V} : (q, v) ∈ m ↔ AMap.get m q = some v :=
  ⟨fun hm => AMap.get_of_mem h hm, fun hg => AMap.mem_of_get hg⟩

theorem latest_some_mem {k : K} {t : Nat} : ∀ {m : Worm K V} {s : Nat} {v : V}, latest k t m = some (s, v) →
    ((k, s), v) ∈ m ∧ s ≤ t ∧ ∀ s' v', ((k, s'), v') ∈ m → s' ≤ t → s' ≤ s
  | [], _, _, h => by simp [latest] at h
  | ((q, s0), v0) :: rest, s, v, h => by
    unfold latest at h
    split at h
    · rename_i hc
      obtain ⟨rfl, hle⟩ := hc
      split at h
      · rename_i s' v' hr
        obtain ⟨h1, h2, h3⟩ := latest_some_mem hr
        split at h
        · rename_i hss
          simp only [Option.some.injEq, Prod.mk.injEq] at h
          obtain ⟨rfl, rfl⟩ := h
          refine ⟨List.mem_cons_self, hle, ?_⟩
          intro s2 v2 hm h2'
          rcases List.mem_cons.mp hm with he | hm
          · simp only [Prod.mk.injEq] at he; omega
          · have := h3 s2 v2 hm h2'; omega
        · rename_i hss
          simp only [Option.some.injEq, Prod.mk.injEq] at h
          obtain ⟨rfl, rfl⟩ := h
          refine ⟨List.mem_cons_of_mem _ h1, h2, ?_⟩
          intro s2 v2 hm h2'
          rcases List.mem_cons.mp hm with he | hm
          · simp only [Prod.mk.injEq] at he; omega
          · exact h3 s2 v2 hm h2'
      · rename_i hr
        simp only [Option.some.injEq, Prod.mk.injEq] at h
        obtain ⟨rfl, rfl⟩ := h
        refine ⟨List.mem_cons_self, hle, ?_⟩
        intro s2 v2 hm h2'
        rcases List.mem_cons.mp hm with he | hm
        · simp only [Prod.mk.injEq] at he; omega
        · exact absurd hm (latest_none_mem hr s2 v2 h2')
    · rename_i hc
      obtain ⟨h1, h2, h3⟩ := latest_some_mem h
      refine ⟨List.mem_cons_of_mem _ h1, h2, ?_⟩
      intro s2 v2 hm h2'
      rcases List.mem_cons.mp hm with he | hm
      · simp only [Prod.mk.injEq] at he
        exact absurd ⟨he.1.1.symm, by omega⟩ hc
      · exact h3 s2 v2 hm h2'
where
  latest_none_mem {k : K} {t : Nat} : ∀ {m : Worm K V}, latest k t m = none →
      ∀ s v, s ≤ t → ((k, s), v) ∉ m
    | [], _, _, _, _ => by simp
    | ((q, s0), v0) :: rest, h, s, v, hle => by
      unfold latest at h
      split at h
      · split at h
        · split at h <;> cases h
        · cases h
      · rename_i hc
        intro hm
        rcases List.mem_cons.mp hm with he | hm
        · simp only [Prod.mk.injEq] at he
          exact hc ⟨he.1.1.symm, by omega⟩
        · exact latest_none_mem h s v hle hm

/-- `s` is the time of the newest snapshot of `k` at or before `t`, with value `v`. -/
def Newest (m : Worm K V) (k : K) (t s : Nat) (v : V) : Prop :=
  AMap.get m (k, s) = some v ∧ s ≤ t ∧ ∀ s', s' ≤ t → AMap.get m (k, s') ≠ none → s' ≤ s

theorem latest_some {m : Worm K V} (h : AMap.WF m) {k : K} {t s : Nat} {v : V} :
    latest k t m = some (s, v) ↔ Newest m k t s v := by
  constructor
  · intro hl
    obtain ⟨h1, h2, h3⟩ := latest_some_mem hl
    refine ⟨(mem_iff h).mp h1, h2, ?_⟩
    intro s' hs' hne
    cases hg : AMap.get m (k, s') with
    | none => exact absurd hg hne
    | some v' => exact h3 s' v' ((mem_iff h).mpr hg) hs'
  · rintro ⟨h1, h2, h3⟩
    cases hl : latest k t m with
    | none => exact absurd ((mem_iff h).mpr h1) (latest_some_mem.latest_none_mem hl s v h2)
    | some p =>
      obtain ⟨s', v'⟩ := p
      obtain ⟨g1, g2, g3⟩ := latest_some_mem hl
      have e1 := (mem_iff h).mp g1
      have := h3 s' g2 (by rw [e1]; simp)
      have := g3 s v ((mem_iff h).mpr h1) h2
      have : s' = s := by omega
      subst this
      rw [e1] at h1
      simp only [Option.some.injEq] at h1
      rw [h1]

theorem latest_none {m : Worm K V} (h : AMap.WF m) {k : K} {t : Nat} :
    latest k t m = none ↔ ∀ s, s ≤ t → AMap.get m (k, s) = none := by
  constructor
  · intro hl s hs
    cases hg : AMap.get m (k, s) with
    | none => rfl
    | some v => exact absurd ((mem_iff h).mpr hg) (latest_some_mem.latest_none_mem hl s v hs)
  · intro hall
    cases hl : latest k t m with
    | none => rfl
    | some p =>
      obtain ⟨s, v⟩ := p
      obtain ⟨g1, g2, _⟩ := (latest_some h).mp hl
      rw [hall s g2] at g1
      cases g1

theorem mem_insertByTime {e x : Nat × V} : ∀ {l : List (Nat × V)}, x ∈ insertByTime e l ↔ x = e ∨ x ∈ l
  | [] => by simp [insertByTime]
  | y :: l => by
    unfold insertByTime
    split
    · simp
    · simp [mem_insertByTime (l := l)]
      constructor
      · rintro (h | h | h) <;> simp [h]
      · rintro (h | h | h) <;> simp [h]

theorem sorted_insertByTime {e : Nat × V} : ∀ {l : List (Nat × V)}, l.Pairwise (fun a b => a.1 < b.1) →
    (∀ x ∈ l, x.1 ≠ e.1) → (insertByTime e l).Pairwise (fun a b => a.1 < b.1)
  | [], _, _ => by simp [insertByTime]
  | y :: l, hp, hne => by
    unfold insertByTime
    rw [List.pairwise_cons] at hp
    split
    · rename_i hle
      have hy := hne y List.mem_cons_self
      rw [List.pairwise_cons, List.pairwise_cons]
      refine ⟨?_, hp⟩
      intro a ha
      rcases List.mem_cons.mp ha with rfl | ha
      · omega
      · have := hp.1 a ha; omega
    · rename_i hle
      rw [List.pairwise_cons]
      refine ⟨?_, sorted_insertByTime hp.2 (fun x hx => hne x (List.mem_cons_of_mem _ hx))⟩
      intro a ha
      rcases mem_insertByTime.mp ha with rfl | ha
      · omega
      · exact hp.1 a ha

theorem mem_future_mem {k : K} {t : Nat} {x : Nat × V} : ∀ {m : Worm K V},
    x ∈ future k t m ↔ t < x.1 ∧ ((k, x.1), x.2) ∈ m
  | [] => by simp [future]
  | ((q, s), v) :: rest => by
    unfold future
    obtain ⟨a, b⟩ := x
    split
    · rename_i hc
      obtain ⟨rfl, hlt⟩ := hc
      rw [mem_insertByTime, mem_future_mem (m := rest)]
      simp only [Prod.mk.injEq, List.mem_cons, true_and]
      constructor
      · rintro (⟨rfl, rfl⟩ | ⟨h1, h2⟩)
        · exact ⟨hlt, Or.inl ⟨rfl, rfl⟩⟩
        · exact ⟨h1, Or.inr h2⟩
      · rintro ⟨h1, h2 | h2⟩
        · exact Or.inl h2
        · exact Or.inr ⟨h1, h2⟩
    · rename_i hc
      rw [mem_future_mem (m := rest)]
      simp only [List.mem_cons, Prod.mk.injEq]
      constructor
      · rintro ⟨h1, h2⟩; exact ⟨h1, Or.inr h2⟩
      · rintro ⟨h1, ⟨⟨rfl, rfl⟩, rfl⟩ | h2⟩
        · exact absurd ⟨rfl, h1⟩ hc
        · exact ⟨h1, h2⟩

theorem sorted_future {k : K} {t : Nat} : ∀ {m : Worm K V}, AMap.WF m →
    (future k t m).Pairwise (fun a b => a.1 < b.1)
  | [], _ => by simp [future]
  | ((q, s), v) :: rest, h => by
    have hn : (q, s) ∉ rest.map Prod.fst ∧ AMap.WF rest := by
      unfold AMap.WF at h ⊢
      simpa using h
    unfold future
    split
    · rename_i hc
      obtain ⟨rfl, hlt⟩ := hc
      refine sorted_insertByTime (sorted_future hn.2) ?_
      intro x hx he
      have := (mem_future_mem.mp hx).2
      rw [he] at this
      exact hn.1 (List.mem_map.mpr ⟨_, this, rfl⟩)
    · exact sorted_future hn.2

theorem mem_future {m : Worm K V} (h : AMap.WF m) {k : K} {t s : Nat} {v : V} :
    (s, v) ∈ future k t m ↔ t < s ∧ AMap.get m (k, s) = some v := by
  rw [mem_future_mem, mem_iff h]

/-- What the loop does to the snapshots, for a closure without state. -/
theorem applyAll_pure {k : K} {f : V → Nat → Res V} : ∀ {l : List (Nat × V)} {m m' : Worm K V} {st : Unit × Unit},
    l.Pairwise (fun a b => a.1 < b.1) → AMap.WF m →
    applyAll k (pureF f) l m st.1 = .ok (m', st.2) →
    AMap.WF m' ∧ (∀ q, (∀ x ∈ l, q ≠ (k, x.1)) → AMap.get m' q = AMap.get m q) ∧
      ∀ s v, (s, v) ∈ l → ∃ w, f v s = .ok w ∧ AMap.get m' (k, s) = some w
  | [], m, m', st, _, hw, h => by
    simp only [applyAll, Except.ok.injEq, Prod.mk.injEq] at h
    obtain ⟨rfl, _⟩ := h
    exact ⟨hw, fun _ _ => rfl, fun _ _ h => (by cases h)⟩
  | (s, v) :: l, m, m', st, hp, hw, h => by
    rw [List.pairwise_cons] at hp
    unfold applyAll at h
    obtain ⟨r, hr, h⟩ := (bind_ok _ _ _).mp h
    unfold pureF at hr
    obtain ⟨u, hu, hr⟩ := (bind_ok _ _ _).mp hr
    simp only [Except.ok.injEq] at hr
    subst hr
    obtain ⟨i1, i2, i3⟩ := applyAll_pure (st := ((), st.2)) hp.2 (AMap.WF_set hw _ _) h
    refine ⟨i1, ?_, ?_⟩
    · intro q hq
      rw [i2 q (fun x hx => hq x (List.mem_cons_of_mem _ hx)), AMap.get_set_ne]
      exact (hq (s, v) List.mem_cons_self).symm
    · intro s' v' hm
      rcases List.mem_cons.mp hm with he | hm
      · simp only [Prod.mk.injEq] at he
        obtain ⟨rfl, rfl⟩ := he
        refine ⟨u, hu, ?_⟩
        rw [i2, AMap.get_set_self]
        intro x hx he
        simp only [Prod.mk.injEq, true_and] at he
        have := hp.1 x hx
        simp only at this
        omega
      · exact i3 s' v' hm

/-- The loop succeeds when the closure does on every snapshot. -/
theorem applyAll_live {k : K} {f : V → Nat → Res V} : ∀ {l : List (Nat × V)} {m : Worm K V},
    (∀ s v, (s, v) ∈ l → ∃ w, f v s = .ok w) → ∃ m', applyAll k (pureF f) l m () = .ok (m', ())
  | [], m, _ => ⟨m, rfl⟩
  | (s, v) :: l, m, h => by
    obtain ⟨w, hw⟩ := h s v List.mem_cons_self
    obtain ⟨m', hm'⟩ := applyAll_live (m := AMap.set m (k, s) w) (fun s v hm => h s v (List.mem_cons_of_mem _ hm))
    refine ⟨m', ?_⟩
    unfold applyAll
    simp only [pureF, hw, ok_bind]
    exact hm'

/-- When the value of `k` in force at `x` came into force, if it is also changed at `t ≤ x`. -/
def since (m : Worm K V) (k : K) (t x : Nat) : Nat :=
  match latest k x m with
  | some (s, _) => max s t
  | none => t

/-- The effect of an update on every key and every time. -/
theorem update_effect {dflt : V} {m m' : Worm K V} {k : K} {t : Nat} {f : V → Nat → Res V} {u : V}
    (hw : AMap.WF m) (h : update dflt m k t (pureF f) () = .ok (m', u, ())) :
    AMap.WF m' ∧
    (∀ q, q ≠ k → ∀ x, load m' q x = load m q x) ∧
    (∀ x, x < t → load m' k x = load m k x) ∧
    (∀ x, t ≤ x → ∃ w, f ((load m k x).getD dflt) (since m k t x) = .ok w ∧ load m' k x = some w) ∧
    load m' k t = some u ∧
    (∀ q s, AMap.get m' (q, s) ≠ none ↔ AMap.get m (q, s) ≠ none ∨ (q = k ∧ s = t)) := by
  unfold update at h
  obtain ⟨r, hr, h⟩ := (bind_ok _ _ _).mp h
  obtain ⟨r2, hr2, h⟩ := (bind_ok _ _ _).mp h
  simp only [Except.ok.injEq, Prod.mk.injEq] at h
  obtain ⟨rfl, rfl, _⟩ := h
  unfold pureF at hr
  obtain ⟨u, hu, hr⟩ := (bind_ok _ _ _).mp hr
  simp only [Except.ok.injEq] at hr
  subst hr
  simp only at hr2 ⊢
  have hw1 : AMap.WF (AMap.set m (k, t) u) := AMap.WF_set hw _ _
  obtain ⟨i1, i2, i3⟩ := applyAll_pure (st := ((), r2.2)) (sorted_future hw1) hw1 hr2
  have hfut : ∀ s v, (s, v) ∈ future k t (AMap.set m (k, t) u) ↔ t < s ∧ AMap.get m (k, s) = some v := by
    intro s v
    rw [mem_future hw1]
    constructor
    · rintro ⟨a, b⟩
      rw [AMap.get_set_ne _ _ (by intro e; simp only [Prod.mk.injEq, true_and] at e; omega)] at b
      exact ⟨a, b⟩
    · rintro ⟨a, b⟩
      rw [AMap.get_set_ne _ _ (by intro e; simp only [Prod.mk.injEq, true_and] at e; omega)]
      exact ⟨a, b⟩
  have hother : ∀ q s, (q = k → s < t) → AMap.get r2.1 (q, s) = AMap.get m (q, s) := by
    intro q s hq
    rw [i2, AMap.get_set_ne]
    · intro e
      simp only [Prod.mk.injEq] at e
      have := hq e.1.symm
      omega
    · intro x hx e
      simp only [Prod.mk.injEq] at e
      have h1 := hq e.1
      have h2 := (hfut x.1 x.2).mp hx
      omega
  have hat : AMap.get r2.1 (k, t) = some u := by
    rw [i2, AMap.get_set_self]
    intro x hx e
    simp only [Prod.mk.injEq, true_and] at e
    have h2 := (hfut x.1 x.2).mp hx
    omega
  have hlater : ∀ s v, t < s → AMap.get m (k, s) = some v → ∃ w, f v s = .ok w ∧ AMap.get r2.1 (k, s) = some w :=
    fun s v hs hg => i3 s v ((hfut s v).mpr ⟨hs, hg⟩)
  have hlaterN : ∀ s, t < s → AMap.get m (k, s) = none → AMap.get r2.1 (k, s) = none := by
    intro s hs hg
    rw [i2, AMap.get_set_ne]
    · exact hg
    · intro e
      simp only [Prod.mk.injEq, true_and] at e
      omega
    · intro x hx e
      simp only [Prod.mk.injEq, true_and] at e
      have h2 := (hfut x.1 x.2).mp hx
      rw [← e, hg] at h2
      cases h2.2
  have hdom : ∀ q s, AMap.get r2.1 (q, s) ≠ none ↔ AMap.get m (q, s) ≠ none ∨ (q = k ∧ s = t) := by
    intro q s
    by_cases hq : q = k
    · subst hq
      rcases Nat.lt_trichotomy s t with hlt | rfl | hgt
      · rw [hother q s (fun _ => hlt)]
        constructor
        · exact Or.inl
        · rintro (h | ⟨_, h⟩)
          · exact h
          · omega
      · rw [hat]; simp
      · cases hg : AMap.get m (q, s) with
        | none =>
          rw [hlaterN s hgt hg]
          constructor
          · intro h; exact absurd rfl h
          · rintro (h | ⟨_, h⟩)
            · exact absurd rfl h
            · omega
        | some v =>
          obtain ⟨w, _, hw2⟩ := hlater s v hgt hg
          rw [hw2]; simp
    · rw [hother q s (fun h => absurd h hq)]
      constructor
      · exact Or.inl
      · rintro (h | ⟨h, _⟩)
        · exact h
        · exact absurd h hq
  have same : ∀ q x, (∀ s, s ≤ x → AMap.get r2.1 (q, s) = AMap.get m (q, s)) → load r2.1 q x = load m q x := by
    intro q x hs
    unfold load
    congr 1
    cases hl : latest q x m with
    | none =>
      rw [latest_none i1]
      intro s hsx
      rw [hs s hsx]
      exact (latest_none hw).mp hl s hsx
    | some p =>
      obtain ⟨s, v⟩ := p
      rw [latest_some i1]
      obtain ⟨a, b, c⟩ := (latest_some hw).mp hl
      exact ⟨by rw [hs s b]; exact a, b, fun s' h1 h2 => c s' h1 (by rw [← hs s' h1]; exact h2)⟩
  refine ⟨i1, ?_, ?_, ?_, ?_, hdom⟩
  · intro q hq x
    exact same q x (fun s _ => hother q s (fun h => absurd h hq))
  · intro x hx
    exact same k x (fun s hs => hother k s (fun _ => by omega))
  · intro x hx
    cases hl : latest k x m with
    | none =>
      have hn := (latest_none hw).mp hl
      have ht : latest k t m = none := (latest_none hw).mpr (fun s hs => hn s (by omega))
      refine ⟨u, ?_, ?_⟩
      · simp only [since, hl, load]
        simpa only [load, ht] using hu
      · have : latest k x r2.1 = some (t, u) := by
          rw [latest_some i1]
          refine ⟨hat, hx, ?_⟩
          intro s' hs' hne
          rcases (hdom k s').mp hne with h | ⟨_, h⟩
          · exact absurd (hn s' hs') h
          · omega
        simp only [load, this, Option.map_some]
    | some p =>
      obtain ⟨s, v⟩ := p
      obtain ⟨a, b, c⟩ := (latest_some hw).mp hl
      by_cases hst : t < s
      · obtain ⟨w, hw1, hw2⟩ := hlater s v hst a
        refine ⟨w, ?_, ?_⟩
        · simp only [since, hl, load, Option.map_some, Option.getD_some]
          rw [Nat.max_eq_left (by omega)]
          exact hw1
        · have : latest k x r2.1 = some (s, w) := by
            rw [latest_some i1]
            refine ⟨hw2, b, ?_⟩
            intro s' hs' hne
            rcases (hdom k s').mp hne with h | ⟨_, h⟩
            · exact c s' hs' h
            · omega
          simp only [load, this, Option.map_some]
      · have ht : latest k t m = some (s, v) := by
          rw [latest_some hw]
          exact ⟨a, by omega, fun s' h1 h2 => c s' (by omega) h2⟩
        refine ⟨u, ?_, ?_⟩
        · simp only [since, hl, load, Option.map_some, Option.getD_some]
          rw [Nat.max_eq_right (by omega)]
          simpa only [load, ht, Option.map_some, Option.getD_some] using hu
        · have : latest k x r2.1 = some (t, u) := by
            rw [latest_some i1]
            refine ⟨hat, hx, ?_⟩
            intro s' hs' hne
            rcases (hdom k s').mp hne with h | ⟨_, h⟩
            · have := c s' hs' h; omega
            · omega
          simp only [load, this, Option.map_some]
  · have : latest k t r2.1 = some (t, u) := by
      rw [latest_some i1]
      exact ⟨hat, Nat.le_refl _, fun s' h1 _ => h1⟩
    simp only [load, this, Option.map_some]

/-- An update fails only if the change fails on some value it has to change. -/
theorem update_live {dflt : V} {m : Worm K V} {k : K} {t : Nat} {f : V → Nat → Res V} (hw : AMap.WF m)
    (h : ∀ x, t ≤ x → ∃ w, f ((load m k x).getD dflt) (since m k t x) = .ok w) :
    ∃ m' u, update dflt m k t (pureF f) () = .ok (m', u, ()) := by
  obtain ⟨u, hu⟩ := h t (Nat.le_refl _)
  have hs : since m k t t = t := by
    unfold since
    cases hl : latest k t m with
    | none => rfl
    | some p =>
      obtain ⟨s, v⟩ := p
      have := ((latest_some hw).mp hl).2.1
      simp only
      omega
  rw [hs] at hu
  have hw1 : AMap.WF (AMap.set m (k, t) u) := AMap.WF_set hw _ _
  obtain ⟨m', hm'⟩ := applyAll_live (k := k) (f := f) (l := future k t (AMap.set m (k, t) u))
    (m := AMap.set m (k, t) u) (by
      intro s v hm
      obtain ⟨a, b⟩ := (mem_future hw1).mp hm
      rw [AMap.get_set_ne _ _ (by intro e; simp only [Prod.mk.injEq, true_and] at e; omega)] at b
      have hl : latest k s m = some (s, v) := (latest_some hw).mpr ⟨b, Nat.le_refl _, fun s' h1 _ => h1⟩
      obtain ⟨w, hw2⟩ := h s (by omega)
      refine ⟨w, ?_⟩
      simp only [load, since, hl, Option.map_some, Option.getD_some] at hw2
      rw [Nat.max_eq_left (by omega)] at hw2
      exact hw2)
  refine ⟨m', u, ?_⟩
  unfold update
  simp only [pureF, hu, ok_bind]
  simp only [hm', ok_bind]

end Verif.Wormhole
