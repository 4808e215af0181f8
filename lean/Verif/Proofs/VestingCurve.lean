import Verif.Spec.Vesting
import Mathlib.Tactic.ByContra
/-!
# Curves rise from 0 to the total
-/

namespace Verif.Vesting

open Verif.Spec.Vesting

theorem mul128_eq {a b c : Nat} (h : mul128 a b = .ok c) : c = a * b ∧ a * b < U128 := by
  have := (mul128_ok _ _ _).mp h
  exact ⟨this.2.symm, this.1⟩

theorem interpolate_up {p q : Nat × Nat} {x y : Nat} (hy : p.2 ≤ q.2) (h : interpolate p q x = .ok y) :
    y = p.2 + (q.2 - p.2) * (x - p.1) / (q.1 - p.1) := by
  unfold interpolate at h
  split at h
  · obtain ⟨m, hm, h⟩ := (bind_ok _ _ _).mp h
    obtain ⟨rfl, _⟩ := mul128_eq hm
    simp only [Except.ok.injEq] at h
    exact h.symm
  · have : p.2 = q.2 := by omega
    obtain ⟨m, hm, h⟩ := (bind_ok _ _ _).mp h
    obtain ⟨rfl, _⟩ := mul128_eq hm
    simp only [Except.ok.injEq] at h
    rw [← h, this]
    simp

theorem interpolate_bounds {p q : Nat × Nat} {x y : Nat} (hy : p.2 ≤ q.2) (hpq : p.1 < q.1) (hx : x ≤ q.1)
    (h : interpolate p q x = .ok y) : p.2 ≤ y ∧ y ≤ q.2 := by
  have := interpolate_up hy h
  have hle : (q.2 - p.2) * (x - p.1) / (q.1 - p.1) ≤ q.2 - p.2 := by
    refine Nat.div_le_of_le_mul ?_
    rw [Nat.mul_comm (q.1 - p.1)]
    exact Nat.mul_le_mul_left _ (by omega)
  generalize (q.2 - p.2) * (x - p.1) / (q.1 - p.1) = z at *
  omega

theorem interpolate_mono {p q : Nat × Nat} {x x' y y' : Nat} (hy : p.2 ≤ q.2) (hx : x ≤ x')
    (h : interpolate p q x = .ok y) (h' : interpolate p q x' = .ok y') : y ≤ y' := by
  have e1 := interpolate_up hy h
  have e2 := interpolate_up hy h'
  have : (q.2 - p.2) * (x - p.1) / (q.1 - p.1) ≤ (q.2 - p.2) * (x' - p.1) / (q.1 - p.1) :=
    Nat.div_le_div_right (Nat.mul_le_mul_left _ (by omega))
  omega

theorem interpolate_live {p q : Nat × Nat} {x : Nat} (hy : p.2 ≤ q.2) (hb : q.2 * x < U128) :
    ∃ y, interpolate p q x = .ok y := by
  have h1 : (q.2 - p.2) * (x - p.1) < U128 :=
    Nat.lt_of_le_of_lt (Nat.mul_le_mul (by omega) (by omega)) hb
  have h2 : (p.2 - q.2) * (x - p.1) < U128 := by
    have : p.2 - q.2 = 0 := by omega
    rw [this, Nat.zero_mul]
    exact Nat.lt_of_le_of_lt (Nat.zero_le _) hb
  have m1 := (mul128_ok (q.2 - p.2) (x - p.1) _).mpr ⟨h1, rfl⟩
  have m2 := (mul128_ok (p.2 - q.2) (x - p.1) _).mpr ⟨h2, rfl⟩
  unfold interpolate
  split
  · rw [m1, ok_bind]; exact ⟨_, rfl⟩
  · rw [m2, ok_bind]; exact ⟨_, rfl⟩

/-! ## Piecewise curves -/

/-- The value of the last point. -/
def lastY : Nat × Nat → List (Nat × Nat) → Nat
  | p, [] => p.2
  | _, q :: rest => lastY q rest

/-- The time of the last point. -/
def lastX : Nat × Nat → List (Nat × Nat) → Nat
  | p, [] => p.1
  | _, q :: rest => lastX q rest

theorem lastY_ge {p : Nat × Nat} {l : List (Nat × Nat)} (h : nondecreasing p.2 l = true) : p.2 ≤ lastY p l := by
  induction l generalizing p with
  | nil => exact Nat.le_refl _
  | cons q rest ih =>
    simp only [nondecreasing, Bool.and_eq_true, decide_eq_true_eq] at h
    have := ih h.2
    simp only [lastY]
    omega

theorem lastX_ge {p : Nat × Nat} {l : List (Nat × Nat)} (h : ascending p.1 l = true) : p.1 ≤ lastX p l := by
  induction l generalizing p with
  | nil => exact Nat.le_refl _
  | cons q rest ih =>
    simp only [ascending, Bool.and_eq_true, decide_eq_true_eq] at h
    have := ih h.2
    simp only [lastX]
    omega

theorem foldl_max {l : List (Nat × Nat)} : ∀ {a : Nat}, nondecreasing a l = true → ∀ p : Nat × Nat, p.2 = a →
    l.foldl (fun m q => max m q.2) a = lastY p l := by
  induction l with
  | nil => intro a _ p hp; simp [lastY, hp]
  | cons q rest ih =>
    intro a h p _
    simp only [nondecreasing, Bool.and_eq_true, decide_eq_true_eq] at h
    simp only [List.foldl_cons, lastY, Nat.max_eq_right h.1]
    exact ih h.2 q rfl

theorem foldl_min {l : List (Nat × Nat)} : ∀ {a b : Nat}, nondecreasing b l = true → a ≤ b →
    l.foldl (fun m q => min m q.2) a = a := by
  induction l with
  | nil => intro a b _ _; rfl
  | cons q rest ih =>
    intro a b h hab
    simp only [nondecreasing, Bool.and_eq_true, decide_eq_true_eq] at h
    simp only [List.foldl_cons]
    rw [Nat.min_eq_left (by omega)]
    exact ih h.2 (by omega)

/-- Between the points around it. -/
theorem segment_bounds {last next : Nat × Nat} {x y : Nat} (hx : last.1 < next.1) (hy : last.2 ≤ next.2)
    (h : piecewiseAt x (some last, next) = .ok y) : last.2 ≤ y ∧ y ≤ next.2 := by
  simp only [piecewiseAt] at h
  split at h
  · simp only [Except.ok.injEq] at h; omega
  · split at h
    · simp only [Except.ok.injEq] at h; omega
    · exact interpolate_bounds hy hx (by omega) h

theorem segment_mono {last next : Nat × Nat} {x x' y y' : Nat} (hx : last.1 < next.1) (hy : last.2 ≤ next.2)
    (hl : last.1 ≤ x) (hxx : x ≤ x') (h : piecewiseAt x (some last, next) = .ok y)
    (h' : piecewiseAt x' (some last, next) = .ok y') : y ≤ y' := by
  have hb := segment_bounds hx hy h
  have hb' := segment_bounds hx hy h'
  simp only [piecewiseAt] at h h'
  split at h
  · simp only [Except.ok.injEq] at h; omega
  · split at h'
    · omega
    · split at h'
      · simp only [Except.ok.injEq] at h'; omega
      · split at h
        · omega
        · exact interpolate_mono hy hxx h h'

theorem around_bounds {x : Nat} : ∀ {l : List (Nat × Nat)} {last next : Nat × Nat} {y : Nat},
    last.1 < next.1 → last.2 ≤ next.2 → ascending next.1 l = true → nondecreasing next.2 l = true →
    piecewiseAt x (around x (some last) next l) = .ok y → last.2 ≤ y ∧ y ≤ lastY next l := by
  intro l
  induction l with
  | nil =>
    intro last next y hx hy _ _ h
    exact segment_bounds hx hy h
  | cons p rest ih =>
    intro last next y hx hy ha hn h
    have hn' := hn
    simp only [ascending, nondecreasing, Bool.and_eq_true, decide_eq_true_eq] at ha hn
    simp only [around] at h
    simp only [lastY]
    split at h
    · have := ih ha.1 hn.1 ha.2 hn.2 h
      omega
    · have := segment_bounds hx hy h
      have := lastY_ge (p := next) hn'
      simp only [lastY] at this
      omega

theorem around_mono {x x' : Nat} (hxx : x ≤ x') : ∀ {l : List (Nat × Nat)} {last next : Nat × Nat} {y y' : Nat},
    last.1 < next.1 → last.2 ≤ next.2 → ascending next.1 l = true → nondecreasing next.2 l = true → last.1 ≤ x →
    piecewiseAt x (around x (some last) next l) = .ok y → piecewiseAt x' (around x' (some last) next l) = .ok y' →
    y ≤ y' := by
  intro l
  induction l with
  | nil =>
    intro last next y y' hx hy _ _ hl h h'
    exact segment_mono hx hy hl hxx h h'
  | cons p rest ih =>
    intro last next y y' hx hy ha hn hl h h'
    simp only [ascending, nondecreasing, Bool.and_eq_true, decide_eq_true_eq] at ha hn
    simp only [around] at h h'
    split at h
    · rw [if_pos (by omega)] at h'
      exact ih ha.1 hn.1 ha.2 hn.2 (by omega) h h'
    · split at h'
      · have h1 := segment_bounds hx hy h
        have h2 := around_bounds ha.1 hn.1 ha.2 hn.2 h'
        omega
      · exact segment_mono hx hy hl hxx h h'

theorem around_end {x : Nat} : ∀ {l : List (Nat × Nat)} {last next : Nat × Nat},
    last.1 < next.1 → ascending next.1 l = true → lastX next l ≤ x →
    piecewiseAt x (around x (some last) next l) = .ok (lastY next l) := by
  intro l
  induction l with
  | nil =>
    intro last next hx _ hl
    simp only [lastX] at hl
    simp only [around, piecewiseAt, lastY]
    rw [if_neg (by omega), if_pos hl]
  | cons p rest ih =>
    intro last next hx ha hl
    simp only [ascending, Bool.and_eq_true, decide_eq_true_eq] at ha
    simp only [lastX] at hl
    have := lastX_ge (p := p) ha.2
    simp only [around, lastY]
    rw [if_pos (by omega)]
    exact ih ha.1 ha.2 hl

theorem around_live {x : Nat} : ∀ {l : List (Nat × Nat)} {last next : Nat × Nat},
    last.1 < next.1 → last.2 ≤ next.2 → ascending next.1 l = true → nondecreasing next.2 l = true →
    lastY next l * x < U128 → ∃ y, piecewiseAt x (around x (some last) next l) = .ok y := by
  intro l
  induction l with
  | nil =>
    intro last next hx hy _ _ hb
    simp only [lastY] at hb
    simp only [around, piecewiseAt]
    split
    · exact ⟨_, rfl⟩
    · split
      · exact ⟨_, rfl⟩
      · exact interpolate_live hy hb
  | cons p rest ih =>
    intro last next hx hy ha hn hb
    have hn' := hn
    simp only [ascending, nondecreasing, Bool.and_eq_true, decide_eq_true_eq] at ha hn
    simp only [around]
    split
    · exact ih ha.1 hn.1 ha.2 hn.2 hb
    · simp only [piecewiseAt]
      split
      · exact ⟨_, rfl⟩
      · split
        · exact ⟨_, rfl⟩
        · refine interpolate_live hy (Nat.lt_of_le_of_lt ?_ hb)
          exact Nat.mul_le_mul_right _ (lastY_ge hn')

/-! ## Accepted curves -/

/-- What is relied on: a curve never descends, stays below its top, and its value only fails to exist when the
128-bit product overflows. -/
structure Good (c : Curve) : Prop where
  mono : ∀ x x' y y', x ≤ x' → c.value x = .ok y → c.value x' = .ok y' → y ≤ y'
  top : ∀ x y, c.value x = .ok y → y ≤ c.range.2
  live : ∀ x, c.range.2 * x < U128 → ∃ y, c.value x = .ok y

theorem good_constant (y : Nat) : Good (.constant y) := by
  refine ⟨?_, ?_, ?_⟩
  · intro x x' a b _ h h'
    simp only [Curve.value, Except.ok.injEq] at h h'
    omega
  · intro x a h
    simp only [Curve.value, Except.ok.injEq] at h
    simp only [Curve.range]; omega
  · intro x _; exact ⟨y, rfl⟩

theorem good_saturating {d t : Nat} (hd : 0 < d) : Good (.saturating 0 0 d t) := by
  have hr : (Curve.saturating 0 0 d t).range.2 = t := by simp [Curve.range]
  have bound : ∀ x y, (Curve.saturating 0 0 d t).value x = .ok y → y ≤ t := by
    intro x y h
    simp only [Curve.value] at h
    split at h
    · omega
    · split at h
      · simp only [Except.ok.injEq] at h; omega
      · exact (interpolate_bounds (Nat.zero_le _) hd (by simp only; omega) h).2
  refine ⟨?_, ?_, ?_⟩
  · intro x x' y y' hx h h'
    have hb := bound x y h
    simp only [Curve.value] at h h'
    rw [if_neg (by omega)] at h h'
    split at h'
    · simp only [Except.ok.injEq] at h'; omega
    · rw [if_neg (by omega)] at h
      exact interpolate_mono (Nat.zero_le _) hx h h'
  · intro x y h
    rw [hr]; exact bound x y h
  · intro x hb
    rw [hr] at hb
    simp only [Curve.value]
    rw [if_neg (by omega)]
    split
    · exact ⟨_, rfl⟩
    · exact interpolate_live (Nat.zero_le _) hb

theorem piecewise_range {p : Nat × Nat} {l : List (Nat × Nat)} (hn : nondecreasing p.2 l = true) :
    (Curve.piecewise (p :: l)).range = (p.2, lastY p l) := by
  simp only [Curve.range]
  rw [foldl_min hn (Nat.le_refl _), foldl_max hn p rfl]

theorem good_piecewise {p q : Nat × Nat} {l : List (Nat × Nat)} (ha : ascending p.1 (q :: l) = true)
    (hn : nondecreasing p.2 (q :: l) = true) : Good (.piecewise (p :: q :: l)) := by
  have hr := piecewise_range hn
  have ha' := ha
  have hn' := hn
  simp only [ascending, nondecreasing, Bool.and_eq_true, decide_eq_true_eq] at ha' hn'
  have hval : ∀ x, (Curve.piecewise (p :: q :: l)).value x =
      if p.1 < x then piecewiseAt x (around x (some p) q l) else .ok p.2 := by
    intro x
    simp only [Curve.value, around]
    split <;> rfl
  refine ⟨?_, ?_, ?_⟩
  · intro x x' y y' hx h h'
    rw [hval] at h h'
    split at h
    · rw [if_pos (by omega)] at h'
      exact around_mono hx ha'.1 hn'.1 ha'.2 hn'.2 (by omega) h h'
    · simp only [Except.ok.injEq] at h
      split at h'
      · have := around_bounds ha'.1 hn'.1 ha'.2 hn'.2 h'
        omega
      · simp only [Except.ok.injEq] at h'
        omega
  · intro x y h
    rw [hval] at h
    rw [hr]
    simp only [lastY]
    split at h
    · exact (around_bounds ha'.1 hn'.1 ha'.2 hn'.2 h).2
    · simp only [Except.ok.injEq] at h
      have := lastY_ge hn
      simp only [lastY] at this
      omega
  · intro x hb
    rw [hr] at hb
    rw [hval]
    split
    · exact around_live ha'.1 hn'.1 ha'.2 hn'.2 hb
    · exact ⟨_, rfl⟩

theorem lastX_getLast {p : Nat × Nat} {l : List (Nat × Nat)} :
    ((p :: l).getLast?.map Prod.fst).getD 0 = lastX p l := by
  induction l generalizing p with
  | nil => rfl
  | cons q rest ih =>
    rw [List.getLast?_cons_cons]
    exact ih

/-- What acceptance of a schedule gives. -/
theorem intoCurve_good {s : Schedule} {total d : Nat} {c : Curve} (hd : d ≠ 0) (h : s.intoCurve total d = .ok c) :
    Good c ∧ c.range.2 = total ∧ c.value 0 = .ok 0 ∧ (∀ x, scheduleEnd s d < x → c.value x = .ok total) ∧
    (∀ y, c.value (scheduleEnd s d) = .ok y → y = total) := by
  unfold Schedule.intoCurve at h
  obtain ⟨c', hc, h⟩ := (bind_ok _ _ _).mp h
  obtain ⟨_, h1, h⟩ := (bind_ok _ _ _).mp h
  obtain ⟨_, h2, h⟩ := (bind_ok _ _ _).mp h
  simp only [Except.ok.injEq] at h
  subst h
  have h1 := (require_ok _ _ _).mp h1
  have h2 := (require_ok _ _ _).mp h2
  simp only [decide_eq_true_eq] at h2
  cases s with
  | saturatingLinear =>
    simp only [Schedule.curve, Except.ok.injEq] at hc
    subst hc
    refine ⟨good_saturating (by omega), by rw [h2], ?_, ?_, ?_⟩
    · obtain ⟨y, hy⟩ := (good_saturating (d := d) (t := total) (by omega)).live 0 (by
        rw [Nat.mul_zero]; decide +kernel)
      rw [hy]
      have hy2 := hy
      simp only [Curve.value] at hy2
      rw [if_neg (by omega), if_neg (by omega)] at hy2
      have := interpolate_up (Nat.zero_le _) hy2
      simp only [Nat.sub_zero, Nat.mul_zero, Nat.zero_div, Nat.add_zero] at this
      rw [this]
    · intro x hx
      simp only [scheduleEnd] at hx
      simp only [Curve.value]
      rw [if_neg (by omega)]
      rw [if_pos hx]
    · intro y hy
      have hsd : scheduleEnd .saturatingLinear d = d := rfl
      rw [hsd] at hy
      simp only [Curve.value] at hy
      rw [if_neg (by omega), if_neg (by omega)] at hy
      have := interpolate_up (Nat.zero_le _) hy
      simp only [Nat.sub_zero, Nat.zero_add] at this
      rw [this, Nat.mul_div_cancel _ (by omega)]
  | piecewiseLinear steps =>
    simp only [Schedule.curve] at hc
    split at hc
    · cases hc
    · rename_i hlen
      simp only [Except.ok.injEq] at hc
      subst hc
      match steps, hlen with
      | [], hlen => simp at hlen
      | [p], hlen => simp at hlen
      | p :: q :: l, _ =>
        simp only [Curve.validate, Bool.and_eq_true, decide_eq_true_eq] at h1
        have ha := h1.1.2
        have hn := h1.2
        unfold ascending at ha
        unfold nondecreasing at hn
        simp only [Bool.and_eq_true, decide_eq_true_eq] at ha hn
        have hr := piecewise_range hn.2
        rw [hr] at h2
        simp only [Prod.mk.injEq] at h2
        have ha' := ha.2
        simp only [ascending, Bool.and_eq_true, decide_eq_true_eq] at ha'
        have hend : ∀ x, scheduleEnd (.piecewiseLinear (p :: q :: l)) d ≤ x →
            (Curve.piecewise (p :: q :: l)).value x = .ok total := by
          intro x hx
          simp only [scheduleEnd] at hx
          rw [lastX_getLast] at hx
          simp only [lastX] at hx
          have := lastX_ge (p := q) ha'.2
          simp only [Curve.value, around]
          rw [if_pos (by omega), around_end ha'.1 ha'.2 hx]
          rw [← h2.2]
          rfl
        refine ⟨good_piecewise ha.2 hn.2, by rw [hr]; exact h2.2, ?_, ?_, ?_⟩
        · simp only [Curve.value, around]
          rw [if_neg (by omega)]
          simp only [piecewiseAt, h2.1]
        · intro x hx
          exact hend x (Nat.le_of_lt hx)
        · intro y hy
          rw [hend _ (Nat.le_refl _)] at hy
          simp only [Except.ok.injEq] at hy
          exact hy.symm

end Verif.Vesting
