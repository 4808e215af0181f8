import Verif.Proofs.Wormhole
import Verif.Spec.StakeTracker
import Mathlib.Tactic.ByContra
/-!
# The stake tracker as functions of time
-/

namespace Verif.StakeTracker

open Verif.Wormhole Verif.Spec.StakeTracker

variable {K σ : Type} [DecidableEq K]

/-- The value of a wormhole of numbers. -/
abbrev at0 (m : Worm K Nat) (k : K) (x : Nat) : Nat := (load m k x).getD 0

theorem increment_effect {add : Nat → Nat → Res Nat} (hadd : ∀ a b c, add a b = .ok c → c = a + b)
    {m m' : Worm K Nat} {k : K} {t i u : Nat} (hw : AMap.WF m) (h : increment add m k t i = .ok (m', u)) :
    AMap.WF m' ∧ (∀ q x, at0 m' q x = if q = k ∧ t ≤ x then at0 m q x + i else at0 m q x) ∧
      u = at0 m k t + i := by
  unfold increment at h
  obtain ⟨⟨m2, w, un⟩, hr, h⟩ := (bind_ok _ _ _).mp h
  simp only [Except.ok.injEq, Prod.mk.injEq] at h
  obtain ⟨rfl, rfl⟩ := h
  obtain ⟨e1, e2, e3, e4, e5, _⟩ := update_effect hw hr
  have key : ∀ q x, at0 m2 q x = if q = k ∧ t ≤ x then at0 m q x + i else at0 m q x := by
    intro q x
    by_cases hq : q = k
    · subst hq
      by_cases hx : t ≤ x
      · rw [if_pos ⟨rfl, hx⟩]
        obtain ⟨w', h1, h2⟩ := e4 x hx
        rw [at0, h2]
        exact hadd _ _ _ h1
      · rw [if_neg (fun h => hx h.2), at0, e3 x (by omega)]
    · rw [if_neg (fun h => hq h.1), at0, e2 q hq x]
  refine ⟨e1, key, ?_⟩
  have := key k t
  rw [if_pos ⟨rfl, Nat.le_refl _⟩, at0, e5] at this
  exact this

theorem decrement_effect {m m' : Worm K Nat} {k : K} {t i u : Nat} (hw : AMap.WF m)
    (h : decrement m k t i = .ok (m', u)) :
    AMap.WF m' ∧ (∀ q x, at0 m' q x = if q = k ∧ t ≤ x then at0 m q x - i else at0 m q x) ∧
      (∀ x, t ≤ x → i ≤ at0 m k x) ∧ u = at0 m k t - i := by
  unfold decrement at h
  obtain ⟨⟨m2, w, un⟩, hr, h⟩ := (bind_ok _ _ _).mp h
  simp only [Except.ok.injEq, Prod.mk.injEq] at h
  obtain ⟨rfl, rfl⟩ := h
  obtain ⟨e1, e2, e3, e4, e5, _⟩ := update_effect hw hr
  have hle : ∀ x, t ≤ x → i ≤ at0 m k x ∧ at0 m2 k x = at0 m k x - i := by
    intro x hx
    obtain ⟨w', h1, h2⟩ := e4 x hx
    obtain ⟨h3, h4⟩ := (sub128_ok _ _ _).mp h1
    exact ⟨h3, by rw [at0, h2]; exact h4.symm⟩
  refine ⟨e1, ?_, fun x hx => (hle x hx).1, ?_⟩
  · intro q x
    by_cases hq : q = k
    · subst hq
      by_cases hx : t ≤ x
      · rw [if_pos ⟨rfl, hx⟩]
        exact (hle x hx).2
      · rw [if_neg (fun h => hx h.2), at0, e3 x (by omega)]
    · rw [if_neg (fun h => hq h.1), at0, e2 q hq x]
  · have := (hle t (Nat.le_refl _)).2
    rw [at0, e5] at this
    exact this

theorem add64_eq (a b c : Nat) (h : add64 a b = .ok c) : c = a + b := by
  have := (add64_ok _ _ _).mp h
  omega

theorem add128_eq (a b c : Nat) (h : add128 a b = .ok c) : c = a + b := by
  have := (add128_ok _ _ _).mp h
  omega

/-- All three maps are well formed. -/
structure WF (s : State) : Prop where
  t : AMap.WF s.total
  v : AMap.WF s.validators
  c : AMap.WF s.cardinality

theorem cardIncIf_effect {c : Bool} {s s' : State} {t : Nat} (hw : WF s) (h : cardIncIf c s t = .ok s') :
    WF s' ∧ s'.total = s.total ∧ s'.validators = s.validators ∧
    ∀ x, validatorCardinality s' x = validatorCardinality s x + if c = true ∧ t ≤ x then 1 else 0 := by
  unfold cardIncIf at h
  split at h
  · rename_i hc
    obtain ⟨r, hr, h⟩ := (bind_ok _ _ _).mp h
    simp only [Except.ok.injEq] at h
    subst h
    obtain ⟨e1, e2, _⟩ := increment_effect add64_eq hw.c (show _ = Except.ok (r.1, r.2) from hr)
    refine ⟨⟨hw.t, hw.v, e1⟩, rfl, rfl, ?_⟩
    intro x
    have := e2 () x
    simp only [true_and] at this
    simp only [hc, true_and]
    show at0 r.1 () x = at0 s.cardinality () x + _
    rw [this]
    split <;> rfl
  · rename_i hc
    simp only [Except.ok.injEq] at h
    subst h
    refine ⟨hw, rfl, rfl, ?_⟩
    intro x
    rw [if_neg (fun h => hc h.1)]
    rfl

theorem cardDecIf_effect {c : Bool} {s s' : State} {t : Nat} (hw : WF s) (h : cardDecIf c s t = .ok s') :
    WF s' ∧ s'.total = s.total ∧ s'.validators = s.validators ∧
    ∀ x, validatorCardinality s x = validatorCardinality s' x + if c = true ∧ t ≤ x then 1 else 0 := by
  unfold cardDecIf at h
  split at h
  · rename_i hc
    obtain ⟨r, hr, h⟩ := (bind_ok _ _ _).mp h
    simp only [Except.ok.injEq] at h
    subst h
    obtain ⟨e1, e2, e3, _⟩ := decrement_effect hw.c (show _ = Except.ok (r.1, r.2) from hr)
    refine ⟨⟨hw.t, hw.v, e1⟩, rfl, rfl, ?_⟩
    intro x
    have h2 := e2 () x
    simp only [true_and] at h2
    have h3 := e3 x
    simp only [hc, true_and]
    show at0 s.cardinality () x = at0 r.1 () x + _
    rw [h2]
    split
    · rename_i hx
      have := h3 hx
      omega
    · rfl
  · rename_i hc
    simp only [Except.ok.injEq] at h
    subst h
    refine ⟨hw, rfl, rfl, ?_⟩
    intro x
    rw [if_neg (fun h => hc h.1)]
    rfl

/-! ## Slashing bonded tokens -/

/-- A closure whose values do not depend on its state updates the map like one without state. -/
theorem applyAll_forget {V : Type} {k : K} {f : σ → V → Nat → Res (V × σ)} {g : V → Nat → Res V}
    (hfg : ∀ st v s r, f st v s = .ok r → g v s = .ok r.1) : ∀ {l : List (Nat × V)} {m m' : Worm K V} {st st' : σ},
    applyAll k f l m st = .ok (m', st') → applyAll k (pureF g) l m () = .ok (m', ())
  | [], m, m', st, st', h => by
    simp only [applyAll, Except.ok.injEq, Prod.mk.injEq] at h
    obtain ⟨rfl, _⟩ := h
    rfl
  | (s, v) :: l, m, m', st, st', h => by
    unfold applyAll at h
    obtain ⟨r, hr, h⟩ := (bind_ok _ _ _).mp h
    unfold applyAll
    simp only [pureF, hfg _ _ _ _ hr, ok_bind]
    exact applyAll_forget hfg h

/-- The state of the slashing closure after visiting a list of values. -/
def visited (a : Nat) : List (Nat × Nat) → Bool → List (Bool × Nat)
  | [], _ => []
  | (s, v) :: l, wn =>
    if v - a = 0 ∧ wn = true then (false, s) :: visited a l false
    else if v - a ≠ 0 ∧ wn = false then (true, s) :: visited a l true
    else visited a l wn

theorem applyAll_slash {k : K} {a : Nat} : ∀ {l : List (Nat × Nat)} {m m' : Worm K Nat} {wn wn' : Bool}
    {ch ch' : List (Bool × Nat)}, applyAll k (slashStep a) l m (wn, ch) = .ok (m', (wn', ch')) →
    ch' = ch ++ visited a l wn
  | [], m, m', wn, wn', ch, ch', h => by
    simp only [applyAll, Except.ok.injEq, Prod.mk.injEq] at h
    simp [visited, h.2.2]
  | (s, v) :: l, m, m', wn, wn', ch, ch', h => by
    unfold applyAll at h
    obtain ⟨⟨u, wn1, ch1⟩, hr, h⟩ := (bind_ok _ _ _).mp h
    have ih := applyAll_slash h
    unfold slashStep at hr
    obtain ⟨new, hn, hr⟩ := (bind_ok _ _ _).mp hr
    obtain ⟨_, hn⟩ := (sub128_ok _ _ _).mp hn
    subst hn
    unfold visited
    simp only at hr
    split at hr
    · rename_i hc
      rw [if_pos hc]
      simp only [Except.ok.injEq, Prod.mk.injEq] at hr
      obtain ⟨_, rfl, rfl⟩ := hr
      rw [ih]; simp
    · rename_i hc
      rw [if_neg hc]
      split at hr
      · rename_i hc2
        rw [if_pos hc2]
        simp only [Except.ok.injEq, Prod.mk.injEq] at hr
        obtain ⟨_, rfl, rfl⟩ := hr
        rw [ih]; simp
      · rename_i hc2
        rw [if_neg hc2]
        simp only [Except.ok.injEq, Prod.mk.injEq] at hr
        obtain ⟨_, rfl, rfl⟩ := hr
        rw [ih]

/-- The net number of changes up to time `x`. -/
def netChanges (x : Nat) : List (Bool × Nat) → Int
  | [] => 0
  | (inc, s) :: l => (if s ≤ x then (if inc then 1 else -1) else 0) + netChanges x l

/-- The last value at or before `x` of a list ordered by time. -/
def lastLE (x : Nat) : List (Nat × Nat) → Nat → Nat
  | [], d => d
  | (s, v) :: l, d => if s ≤ x then lastLE x l v else d

/-- `-1` for a validator without tokens. -/
def zInd (b : Bool) : Int := if b then 0 else -1

theorem net_zero {x : Nat} {a : Nat} : ∀ {l : List (Nat × Nat)} {wn : Bool}, (∀ e ∈ l, x < e.1) →
    netChanges x (visited a l wn) = 0
  | [], _, _ => rfl
  | (s, v) :: l, wn, h => by
    have hs : ¬ s ≤ x := by have := h (s, v) List.mem_cons_self; simp only at this; omega
    have ih := fun wn => net_zero (a := a) (l := l) (wn := wn) (fun e he => h e (List.mem_cons_of_mem _ he))
    unfold visited
    split
    · simp only [netChanges, if_neg hs, ih, Int.add_zero]
    · split
      · simp only [netChanges, if_neg hs, ih, Int.add_zero]
      · exact ih wn

theorem net_visited {x a : Nat} : ∀ {l : List (Nat × Nat)} {wn : Bool} {d : Nat},
    l.Pairwise (fun a b => a.1 < b.1) → wn = decide (d - a ≠ 0) →
    netChanges x (visited a l wn) = zInd (decide (lastLE x l d - a ≠ 0)) - zInd wn
  | [], wn, d, _, hwn => by
    have : decide (lastLE x [] d - a ≠ 0) = wn := by rw [hwn, decide_eq_decide]; rfl
    rw [this]
    simp only [visited, netChanges]
    omega
  | (s, v) :: l, wn, d, hp, hwn => by
    rw [List.pairwise_cons] at hp
    by_cases hs : s ≤ x
    · have ih : ∀ wn', wn' = decide (v - a ≠ 0) →
          netChanges x (visited a l wn') = zInd (decide (lastLE x l v - a ≠ 0)) - zInd wn' :=
        fun wn' h => net_visited hp.2 h
      unfold visited lastLE
      rw [if_pos hs]
      split
      · rename_i hc
        simp only [netChanges, if_pos hs]
        rw [ih false (by simp [hc.1]), hc.2]
        simp only [zInd, if_true, Bool.false_eq_true, if_false]
        omega
      · rename_i hc
        split
        · rename_i hc2
          simp only [netChanges, if_pos hs]
          rw [ih true (by simp only [hc2.1, decide_true, ne_eq, not_false_eq_true]), hc2.2]
          simp only [zInd, if_true, Bool.false_eq_true, if_false]
          omega
        · rename_i hc2
          refine ih wn ?_
          cases hwn' : wn <;> by_cases hz : v - a = 0 <;> simp_all
    · have hall : ∀ e ∈ (s, v) :: l, x < e.1 := by
        intro e he
        rcases List.mem_cons.mp he with rfl | he
        · simp only; omega
        · have := hp.1 e he
          simp only at this
          omega
      rw [net_zero hall]
      unfold lastLE
      rw [if_neg hs, hwn]
      omega

theorem lastLE_skip {x d : Nat} : ∀ {l : List (Nat × Nat)}, l.Pairwise (fun a b => a.1 < b.1) →
    (∀ e ∈ l, x < e.1) → lastLE x l d = d
  | [], _, _ => rfl
  | (s, v) :: l, _, h => by
    have := h (s, v) List.mem_cons_self
    unfold lastLE
    rw [if_neg (by simp only at this; omega)]

theorem lastLE_max {x d s v : Nat} : ∀ {l : List (Nat × Nat)}, l.Pairwise (fun a b => a.1 < b.1) →
    (s, v) ∈ l → s ≤ x → (∀ e ∈ l, e.1 ≤ x → e.1 ≤ s) → lastLE x l d = v
  | [], _, hm, _, _ => by cases hm
  | (s0, v0) :: l, hp, hm, hs, hmax => by
    rw [List.pairwise_cons] at hp
    unfold lastLE
    rcases List.mem_cons.mp hm with he | hm
    · simp only [Prod.mk.injEq] at he
      obtain ⟨rfl, rfl⟩ := he
      rw [if_pos hs]
      refine lastLE_skip hp.2 ?_
      intro e he
      have h1 := hp.1 e he
      have h2 := hmax e (List.mem_cons_of_mem _ he)
      simp only at h1
      by_contra hx
      have := h2 (by omega)
      omega
    · have h1 := hp.1 (s, v) hm
      simp only at h1
      rw [if_pos (by omega)]
      exact lastLE_max hp.2 hm hs (fun e he => hmax e (List.mem_cons_of_mem _ he))

/-- Reading a time at or after `t` is reading the last of the values the update visits. -/
theorem lastLE_future {m : Worm K Nat} (hw : AMap.WF m) (k : K) {t x u : Nat} (hx : t ≤ x) :
    lastLE x (future k t (AMap.set m (k, t) u)) (at0 m k t) = at0 m k x := by
  have hw1 : AMap.WF (AMap.set m (k, t) u) := AMap.WF_set hw _ _
  have hfut : ∀ s v, (s, v) ∈ future k t (AMap.set m (k, t) u) ↔ t < s ∧ AMap.get m (k, s) = some v := by
    intro s v
    rw [mem_future hw1]
    constructor
    · rintro ⟨a, b⟩
      rw [AMap.get_set_ne _ _ (by intro e; simp only [Prod.mk.injEq, true_and] at e; omega)] at b
      exact ⟨a, b⟩
    · rintro ⟨a, b⟩
      rw [AMap.get_set_ne _ _ (by intro e; simp only [Prod.mk.injEq, true_and] at e; omega)]
      exact ⟨a, b⟩
  have hsorted := sorted_future (k := k) (t := t) hw1
  cases hl : latest k x m with
  | none =>
    have hn := (latest_none hw).mp hl
    have ht : latest k t m = none := (latest_none hw).mpr (fun s hs => hn s (by omega))
    rw [lastLE_skip hsorted]
    · simp only [at0, load, hl, ht]
    · intro e he
      have h1 := (hfut e.1 e.2).mp he
      by_contra hlt
      have := hn e.1 (by omega)
      rw [this] at h1
      cases h1.2
  | some p =>
    obtain ⟨s, v⟩ := p
    obtain ⟨a, b, c⟩ := (latest_some hw).mp hl
    by_cases hst : t < s
    · rw [lastLE_max hsorted ((hfut s v).mpr ⟨hst, a⟩) b]
      · simp only [at0, load, hl, Option.map_some, Option.getD_some]
      · intro e he hex
        have h1 := (hfut e.1 e.2).mp he
        exact c e.1 hex (by rw [h1.2]; simp)
    · have ht : latest k t m = some (s, v) := by
        rw [latest_some hw]
        exact ⟨a, by omega, fun s' h1 h2 => c s' (by omega) h2⟩
      rw [lastLE_skip hsorted]
      · simp only [at0, load, hl, ht]
      · intro e he
        have h1 := (hfut e.1 e.2).mp he
        by_contra hlt
        have := c e.1 (by omega) (by rw [h1.2]; simp)
        omega

theorem applyChanges_effect : ∀ {l : List (Bool × Nat)} {s s' : State}, WF s → applyChanges l s = .ok s' →
    WF s' ∧ s'.total = s.total ∧ s'.validators = s.validators ∧
    ∀ x, (validatorCardinality s' x : Int) = validatorCardinality s x + netChanges x l
  | [], s, s', hw, h => by
    simp only [applyChanges, Except.ok.injEq] at h
    subst h
    exact ⟨hw, rfl, rfl, fun x => (by simp [netChanges])⟩
  | (inc, time) :: rest, s, s', hw, h => by
    unfold applyChanges at h
    obtain ⟨s1, h1, h⟩ := (bind_ok _ _ _).mp h
    have key : WF s1 ∧ s1.total = s.total ∧ s1.validators = s.validators ∧
        ∀ x, (validatorCardinality s1 x : Int) = validatorCardinality s x + if time ≤ x then (if inc then 1 else -1) else 0 := by
      cases inc with
      | true =>
        simp only [applyChange, if_true] at h1
        obtain ⟨a, b, c, d⟩ := cardIncIf_effect hw h1
        refine ⟨a, b, c, fun x => ?_⟩
        have := d x
        simp only [true_and] at this
        rw [this]
        split <;> simp
      | false =>
        simp only [applyChange, Bool.false_eq_true, if_false] at h1
        obtain ⟨a, b, c, d⟩ := cardDecIf_effect hw h1
        refine ⟨a, b, c, fun x => ?_⟩
        have := d x
        simp only [true_and] at this
        rw [this]
        split <;> simp <;> omega
    obtain ⟨a, b, c, d⟩ := key
    obtain ⟨i1, i2, i3, i4⟩ := applyChanges_effect a h
    refine ⟨i1, i2.trans b, i3.trans c, fun x => ?_⟩
    rw [i4, d]
    simp only [netChanges]
    omega

/-! ## The effect of every call -/

theorem onDelegate_effect {s s' : State} {t v a : Nat} (hw : WF s) (h : onDelegate s t v a = .ok s') :
    WF s' ∧
    (∀ x, totalStaked s' x = if t ≤ x then totalStaked s x + a else totalStaked s x) ∧
    (∀ x w, validatorStaked s' x w = if w = v ∧ t ≤ x then validatorStaked s x w + a else validatorStaked s x w) ∧
    (∀ x, validatorCardinality s' x =
      validatorCardinality s x + if (validatorStaked s t v = 0 ∧ a ≠ 0) ∧ t ≤ x then 1 else 0) := by
  unfold onDelegate at h
  obtain ⟨⟨m1, u1⟩, h1, h⟩ := (bind_ok _ _ _).mp h
  obtain ⟨s1, h2, h⟩ := (bind_ok _ _ _).mp h
  obtain ⟨⟨m3, u3⟩, h3, h⟩ := (bind_ok _ _ _).mp h
  simp only [Except.ok.injEq] at h
  obtain ⟨a1, a2, _⟩ := increment_effect add128_eq hw.t h1
  obtain ⟨b1, b2, b3, b4⟩ := cardIncIf_effect (s := { s with total := m1 }) ⟨a1, hw.v, hw.c⟩ h2
  obtain ⟨c1, c2, _⟩ := increment_effect add128_eq b1.v h3
  subst h
  refine ⟨⟨b1.t, c1, b1.c⟩, ?_, ?_, ?_⟩
  · intro x
    have := a2 () x
    simp only [true_and] at this
    show at0 s1.total () x = _
    rw [b2]
    exact this
  · intro x w
    have := c2 w x
    rw [b3] at this
    exact this
  · intro x
    have := b4 x
    simp only [Bool.and_eq_true, decide_eq_true_eq] at this
    exact this

theorem onUndelegate_effect {s s' : State} {t v a d : Nat} (hw : WF s) (h : onUndelegate s t v a d = .ok s') :
    WF s' ∧
    (∀ x, t + d ≤ x → a ≤ totalStaked s x ∧ a ≤ validatorStaked s x v) ∧
    (∀ x, totalStaked s' x = if t + d ≤ x then totalStaked s x - a else totalStaked s x) ∧
    (∀ x w, validatorStaked s' x w =
      if w = v ∧ t + d ≤ x then validatorStaked s x w - a else validatorStaked s x w) ∧
    (∀ x, validatorCardinality s x =
      validatorCardinality s' x + if (validatorStaked s (t + d) v - a = 0 ∧ a ≠ 0) ∧ t + d ≤ x then 1 else 0) := by
  unfold onUndelegate at h
  obtain ⟨e, he, h⟩ := (bind_ok _ _ _).mp h
  have := add64_eq _ _ _ he
  subst this
  obtain ⟨⟨m1, u1⟩, h1, h⟩ := (bind_ok _ _ _).mp h
  obtain ⟨⟨m2, u2⟩, h2, h⟩ := (bind_ok _ _ _).mp h
  obtain ⟨a1, a2, a3, _⟩ := decrement_effect hw.t h1
  obtain ⟨b1, b2, b3, b4⟩ := decrement_effect hw.v h2
  obtain ⟨c1, c2, c3, c4⟩ := cardDecIf_effect (s := { s with total := m1, validators := m2 }) ⟨a1, b1, hw.c⟩ h
  refine ⟨c1, fun x hx => ⟨a3 x hx, b3 x hx⟩, ?_, ?_, ?_⟩
  · intro x
    have := a2 () x
    simp only [true_and] at this
    show at0 s'.total () x = _
    rw [c2]
    exact this
  · intro x w
    show at0 s'.validators w x = _
    rw [c3]
    exact b2 w x
  · intro x
    have := c4 x
    subst b4
    simp only [Bool.and_eq_true, decide_eq_true_eq] at this
    exact this

theorem onRedelegate_effect {s s' : State} {t src dst a : Nat} (hw : WF s)
    (h : onRedelegate s t src dst a = .ok s') :
    WF s' ∧
    (∀ x, t ≤ x → a ≤ validatorStaked s x src) ∧
    (∀ x, totalStaked s' x = totalStaked s x) ∧
    (∀ x w, validatorStaked s' x w =
      (validatorStaked s x w - if w = src ∧ t ≤ x then a else 0) + if w = dst ∧ t ≤ x then a else 0) ∧
    (∀ x, validatorCardinality s' x + (if validatorStaked s t src - a = 0 ∧ t ≤ x then 1 else 0) =
      validatorCardinality s x + if (validatorStaked s t dst - if dst = src then a else 0) = 0 ∧ t ≤ x then 1 else 0) := by
  unfold onRedelegate at h
  obtain ⟨⟨m1, u1⟩, h1, h⟩ := (bind_ok _ _ _).mp h
  obtain ⟨s1, h2, h⟩ := (bind_ok _ _ _).mp h
  obtain ⟨⟨m3, u3⟩, h3, h⟩ := (bind_ok _ _ _).mp h
  obtain ⟨a1, a2, a3, a4⟩ := decrement_effect hw.v h1
  obtain ⟨b1, b2, b3, b4⟩ := cardDecIf_effect (s := { s with validators := m1 }) ⟨hw.t, a1, hw.c⟩ h2
  obtain ⟨c1, c2, c3⟩ := increment_effect add128_eq b1.v h3
  obtain ⟨d1, d2, d3, d4⟩ := cardIncIf_effect (s := { s1 with validators := m3 }) ⟨b1.t, c1, b1.c⟩ h
  rw [b3] at c2 c3
  simp only at c2 c3
  refine ⟨d1, a3, ?_, ?_, ?_⟩
  · intro x
    unfold totalStaked
    rw [d2]
    simp only
    rw [b2]
  · intro x w
    show at0 s'.validators w x = _
    rw [d3]
    simp only
    rw [c2, a2]
    show _ = (at0 s.validators w x - _) + _
    have hS : (if w = src ∧ t ≤ x then at0 s.validators w x - a else at0 s.validators w x)
        = at0 s.validators w x - if w = src ∧ t ≤ x then a else 0 := by split <;> rfl
    rw [hS]
    split <;> rfl
  · intro x
    have hb := b4 x
    have hd := d4 x
    simp only [decide_eq_true_eq] at hb hd
    rw [a4] at hb
    have hu : (u3 = a) ↔ (validatorStaked s t dst - if dst = src then a else 0) = 0 := by
      rw [c3, a2]
      simp only [Nat.le_refl, and_true]
      show (if dst = src then at0 s.validators dst t - a else at0 s.validators dst t) + a = a ↔ (at0 s.validators dst t - _) = 0
      split <;> omega
    simp only [hu] at hd
    have e1 : validatorCardinality { s1 with validators := m3 } x = validatorCardinality s1 x := rfl
    have e2 : validatorCardinality { s with validators := m1 } x = validatorCardinality s x := rfl
    have e3 : at0 s.validators src t = validatorStaked s t src := rfl
    rw [e1] at hd
    rw [e2, e3] at hb
    omega

theorem onBondedSlash_effect {s s' : State} {t v a : Nat} (hw : WF s) (h : onBondedSlash s t v a = .ok s') :
    WF s' ∧
    (∀ x, t ≤ x → a ≤ totalStaked s x ∧ a ≤ validatorStaked s x v) ∧
    (∀ x, totalStaked s' x = if t ≤ x then totalStaked s x - a else totalStaked s x) ∧
    (∀ x w, validatorStaked s' x w =
      if w = v ∧ t ≤ x then validatorStaked s x w - a else validatorStaked s x w) ∧
    (∀ x, validatorCardinality s x =
      validatorCardinality s' x + if validatorStaked s x v - a = 0 ∧ t ≤ x then 1 else 0) := by
  unfold onBondedSlash at h
  obtain ⟨⟨m1, u1⟩, h1, h⟩ := (bind_ok _ _ _).mp h
  obtain ⟨⟨m2, u2, wn, ch⟩, h2, h⟩ := (bind_ok _ _ _).mp h
  obtain ⟨a1, a2, a3, _⟩ := decrement_effect hw.t h1
  have hforget : ∀ (st : Bool × List (Bool × Nat)) v0 s0 r, slashStep a st v0 s0 = .ok r → sub128 v0 a = .ok r.1 := by
    intro st v0 s0 r hr
    unfold slashStep at hr
    obtain ⟨new, hn, hr⟩ := (bind_ok _ _ _).mp hr
    split at hr
    · simp only [Except.ok.injEq] at hr; subst hr; exact hn
    · split at hr <;> (simp only [Except.ok.injEq] at hr; subst hr; exact hn)
  -- the map is updated as by `decrement`
  have hdec : decrement s.validators v t a = .ok (m2, u2) := by
    unfold update at h2
    obtain ⟨r, hr, h2⟩ := (bind_ok _ _ _).mp h2
    obtain ⟨r2, hr2, h2⟩ := (bind_ok _ _ _).mp h2
    simp only [Except.ok.injEq, Prod.mk.injEq] at h2
    obtain ⟨rfl, rfl, _⟩ := h2
    have e1 := hforget _ _ _ _ hr
    have e2 := applyAll_forget (g := fun v _ => sub128 v a) hforget (show _ = Except.ok (r2.1, r2.2) from hr2)
    unfold decrement update
    simp only [pureF, e1, ok_bind]
    rw [e2]
    simp only [ok_bind]
  obtain ⟨b1, b2, b3, b4⟩ := decrement_effect hw.v hdec
  -- the changes
  have hnet : ∀ x, t ≤ x → netChanges x ch = zInd (decide (at0 s.validators v x - a ≠ 0)) := by
    intro x hx
    unfold update at h2
    obtain ⟨⟨u, wn1, ch1⟩, hr, h2⟩ := (bind_ok _ _ _).mp h2
    obtain ⟨⟨m5, wn5, ch5⟩, hr2, h2⟩ := (bind_ok _ _ _).mp h2
    simp only [Except.ok.injEq, Prod.mk.injEq] at h2
    obtain ⟨_, _, _, rfl⟩ := h2
    have hch := applyAll_slash hr2
    have hfut := lastLE_future hw.v v (u := u) hx
    have hsorted := sorted_future (k := v) (t := t) (AMap.WF_set hw.v (v, t) u)
    unfold slashStep at hr
    obtain ⟨new, hn, hr⟩ := (bind_ok _ _ _).mp hr
    obtain ⟨_, hn⟩ := (sub128_ok _ _ _).mp hn
    have hnew : new = at0 s.validators v t - a := hn.symm
    have happ : ∀ l1 l2, netChanges x (l1 ++ l2) = netChanges x l1 + netChanges x l2 := by
      intro l1 l2
      induction l1 with
      | nil => simp [netChanges]
      | cons p l1 ih => obtain ⟨i, s0⟩ := p; simp only [List.cons_append, netChanges, ih]; omega
    rw [hch, happ]
    split at hr
    · rename_i hc
      simp only [Except.ok.injEq, Prod.mk.injEq] at hr
      obtain ⟨_, rfl, rfl⟩ := hr
      have hz : at0 s.validators v t - a = 0 := by rw [← hnew]; exact hc.1
      have := net_visited (x := x) hsorted (wn := false) (d := at0 s.validators v t) (a := a) (by simp [hz])
      rw [this, hfut]
      simp only [List.nil_append, netChanges, if_pos hx, zInd, Bool.false_eq_true, if_false]
      split <;> omega
    · rename_i hc
      split at hr
      · rename_i hc2
        exact absurd hc2.2 (by simp)
      · simp only [Except.ok.injEq, Prod.mk.injEq] at hr
        obtain ⟨_, rfl, rfl⟩ := hr
        have hz : at0 s.validators v t - a ≠ 0 := by
          rw [← hnew]
          exact fun h => hc ⟨h, rfl⟩
        have := net_visited (x := x) hsorted (wn := true) (d := at0 s.validators v t) (a := a)
          (by simp only [hz, ne_eq, not_false_eq_true, decide_true])
        rw [this, hfut]
        simp only [netChanges, zInd, if_true]
        split <;> omega
  have hnet0 : ∀ x, x < t → netChanges x ch = 0 := by
    intro x hx
    unfold update at h2
    obtain ⟨⟨u, wn1, ch1⟩, hr, h2⟩ := (bind_ok _ _ _).mp h2
    obtain ⟨⟨m5, wn5, ch5⟩, hr2, h2⟩ := (bind_ok _ _ _).mp h2
    simp only [Except.ok.injEq, Prod.mk.injEq] at h2
    obtain ⟨_, _, _, rfl⟩ := h2
    have hch := applyAll_slash hr2
    have h0 : ∀ wn, netChanges x (visited a (future v t (AMap.set s.validators (v, t) u)) wn) = 0 := by
      intro wn
      refine net_zero ?_
      intro e he
      have := (mem_future (AMap.WF_set hw.v (v, t) u)).mp (show (e.1, e.2) ∈ _ from he)
      omega
    unfold slashStep at hr
    obtain ⟨new, hn, hr⟩ := (bind_ok _ _ _).mp hr
    rw [hch]
    split at hr
    · simp only [Except.ok.injEq, Prod.mk.injEq] at hr
      obtain ⟨_, rfl, rfl⟩ := hr
      simp only [List.nil_append, List.cons_append, netChanges, h0]
      rw [if_neg (by omega)]
      rfl
    · split at hr
      · rename_i hc2
        exact absurd hc2.2 (by simp)
      · simp only [Except.ok.injEq, Prod.mk.injEq] at hr
        obtain ⟨_, rfl, rfl⟩ := hr
        simp only [List.nil_append, h0]
  obtain ⟨c1, c2, c3, c4⟩ := applyChanges_effect (s := { s with total := m1, validators := m2 }) ⟨a1, b1, hw.c⟩ h
  refine ⟨c1, fun x hx => ⟨a3 x hx, b3 x hx⟩, ?_, ?_, ?_⟩
  · intro x
    have := a2 () x
    simp only [true_and] at this
    show at0 s'.total () x = _
    rw [c2]
    exact this
  · intro x w
    show at0 s'.validators w x = _
    rw [c3]
    exact b2 w x
  · intro x
    have hc := c4 x
    have e2 : validatorCardinality { s with total := m1, validators := m2 } x = validatorCardinality s x := rfl
    rw [e2] at hc
    by_cases hx : t ≤ x
    · rw [hnet x hx] at hc
      simp only [hx, and_true]
      show _ = _ + if at0 s.validators v x - a = 0 then 1 else 0
      simp only [zInd] at hc
      by_cases hz : at0 s.validators v x - a = 0
      · simp only [hz, ne_eq, not_true_eq_false, decide_false, Bool.false_eq_true, if_false, if_true] at hc ⊢
        omega
      · simp only [hz, ne_eq, not_false_eq_true, decide_true, if_true, if_false] at hc ⊢
        omega
    · rw [hnet0 x (by omega)] at hc
      rw [if_neg (fun h => hx h.2)]
      omega

end Verif.StakeTracker
