import Verif.Spec.Condorcet
import Mathlib.Tactic.Ring
import Mathlib.Tactic.Linarith
/-!
# The triangular matrix of the Condorcet tally

Index arithmetic, and the refinement of `M` to an antisymmetric integer matrix.
-/

namespace Verif.Condorcet
open Verif Verif.Voting Verif.Spec.Condorcet

/-- Start of row `y` in the triangle. -/
def rowStart (n y : Nat) : Nat := y * n - (y + 1) * y / 2

theorem tri_succ (y : Nat) : (y + 2) * (y + 1) / 2 = (y + 1) * y / 2 + (y + 1) := by
  have : (y + 2) * (y + 1) = (y + 1) * y + (y + 1) * 2 := by ring
  rw [this, Nat.add_mul_div_right _ _ (by omega)]

theorem tri_le {n y : Nat} (h : y < n) : (y + 1) * y / 2 ≤ y * n := by
  have h1 : (y + 1) * y ≤ y * n := by rw [Nat.mul_comm]; exact Nat.mul_le_mul_left _ h
  omega

theorem rowStart_succ {n y : Nat} (h : y + 1 < n) : rowStart n (y + 1) = rowStart n y + (n - (y + 1)) := by
  have h1 := tri_le (n := n) (y := y) (by omega)
  have h2 := tri_le h
  have h3 : (y + 1) * n = y * n + n := by ring
  unfold rowStart
  rw [tri_succ] at *
  omega

theorem rowStart_last {n y : Nat} (h : y + 1 = n) : rowStart n y + (n - (y + 1)) = n * (n - 1) / 2 := by
  subst h
  unfold rowStart
  have h3 : y * (y + 1) = (y + 1) * y := Nat.mul_comm _ _
  have : (y + 1) * (y + 1 - 1) = (y + 1) * y := by simp
  rw [h3, this]
  have e : 2 ∣ (y + 1) * y := by
    rcases Nat.even_or_odd' y with ⟨k, rfl | rfl⟩
    · exact ⟨(2 * k + 1) * k, by ring⟩
    · exact ⟨(k + 1) * (2 * k + 1), by ring⟩
  omega

theorem rowStart_mono {n y y' : Nat} (hy : y < y') (h : y' < n) :
    rowStart n y + (n - (y + 1)) ≤ rowStart n y' := by
  induction y' with
  | zero => omega
  | succ k ih =>
    rw [rowStart_succ h]
    by_cases hk : y = k
    · subst hk; omega
    · have := ih (by omega) (by omega)
      omega

theorem index_lt {n x y : Nat} (hy : y < x) (hx : x < n) :
    rowStart n y + (x - (y + 1)) < n * (n - 1) / 2 := by
  have hl := rowStart_last (n := n) (y := n - 1) (by omega)
  by_cases h : y = n - 1
  · omega
  · have := rowStart_mono (n := n) (y := y) (y' := n - 1) (by omega) (by omega)
    omega

theorem index_inj {n x y x' y' : Nat} (hy : y < x) (hx : x < n) (hy' : y' < x') (hx' : x' < n)
    (h : rowStart n y + (x - (y + 1)) = rowStart n y' + (x' - (y' + 1))) : x = x' ∧ y = y' := by
  rcases Nat.lt_trichotomy y y' with hl | he | hg
  · have := rowStart_mono (n := n) hl (by omega); omega
  · subst he; omega
  · have := rowStart_mono (n := n) hg (by omega); omega

/-- No intermediate value of the index computation leaves `u32` when `n * (n - 1)` does not. -/
theorem index_u32 {n x y : Nat} (hn : n * (n - 1) < U32) (hy : y < x) (hx : x < n) :
    y * n < U32 ∧ (y + 1) * y < U32 ∧ (y + 1) * y / 2 ≤ y * n ∧
      rowStart n y + (x - (y + 1)) < U32 := by
  have h1 : y * n ≤ n * (n - 1) := by
    rw [Nat.mul_comm]; exact Nat.mul_le_mul_left _ (by omega)
  have h2 : (y + 1) * y ≤ n * (n - 1) := Nat.mul_le_mul (by omega) (by omega)
  have h3 := index_lt hy hx
  have h4 := tri_le (n := n) (y := y) (by omega)
  omega

/-- The matrix has one cell per unordered pair, and no cell holds a signed zero. -/
structure M.Ok (m : M) : Prop where
  len : m.cells.length = m.n * (m.n - 1) / 2
  pos : ∀ c ∈ m.cells, c ≠ .positive 0 ∧ c ≠ .negative 0

theorem index_eq (m : M) {x y : Nat} (h : y < x) : m.index x y = .ok (rowStart m.n y + (x - (y + 1))) := by
  unfold M.index; rw [if_pos h]; rfl

theorem upper_eq {m : M} (hm : m.Ok) {x y : Nat} (hy : y < x) (hx : x < m.n) :
    ∃ c, m.cells[rowStart m.n y + (x - (y + 1))]? = some c ∧ m.upper x y = .ok c ∧ c ∈ m.cells := by
  have hl := index_lt hy hx
  rw [← hm.len] at hl
  refine ⟨m.cells[rowStart m.n y + (x - (y + 1))], List.getElem?_eq_getElem hl, ?_, List.getElem_mem hl⟩
  simp only [M.upper, index_eq m hy, ok_bind, List.getElem?_eq_getElem hl, orErr]

/-- The integer entry `(x, y)` of the matrix; 0 on the diagonal and outside. -/
def M.val (m : M) (x y : Nat) : Int :=
  match m.get x y with
  | .ok c => cellValue c
  | .error _ => 0

theorem cellValue_invert (c : Cell) : cellValue c.invert = - cellValue c := by
  cases c <;> simp [cellValue, Cell.invert]

theorem get_ok {m : M} (hm : m.Ok) {x y : Nat} (hxy : x ≠ y) (hx : x < m.n) (hy : y < m.n) :
    ∃ c, m.get x y = .ok c ∧ cellValue c = m.val x y ∧ c ≠ .positive 0 ∧ c ≠ .negative 0 := by
  unfold M.val M.get
  by_cases h : x < y
  · obtain ⟨c, _, h2, h3⟩ := upper_eq hm h hy
    obtain ⟨p1, p2⟩ := hm.pos c h3
    simp only [h, if_true, h2, ok_bind]
    refine ⟨_, rfl, rfl, ?_, ?_⟩ <;> cases c <;> simp_all [Cell.invert]
  · obtain ⟨c, _, h2, h3⟩ := upper_eq hm (show y < x by omega) hx
    simp only [h, if_false, h2]
    exact ⟨_, rfl, rfl, hm.pos c h3⟩

theorem val_antisymm {m : M} (x y : Nat) : m.val x y = - m.val y x := by
  unfold M.val M.get
  rcases Nat.lt_trichotomy x y with h | h | h
  · have h' : ¬ y < x := by omega
    simp only [h, h', if_true, if_false]
    cases hu : m.upper y x with
    | ok c => simp only [ok_bind, cellValue_invert]
    | error e => simp only [error_bind]; rfl
  · subst h
    have : m.upper x x = .error .underflow := by
      simp [M.upper, M.index]
    simp [this]
  · have h' : ¬ x < y := by omega
    simp only [h, h', if_true, if_false]
    cases hu : m.upper x y with
    | ok c => simp only [ok_bind, cellValue_invert]; omega
    | error e => simp only [error_bind]; rfl

theorem newM_ok {n : Nat} {m : M} (h : newM n = .ok m) : m.Ok ∧ m.n = n ∧ ∀ x y, m.val x y = 0 := by
  unfold newM at h
  split at h
  · injection h with h; subst h
    refine ⟨⟨by simp, ?_⟩, rfl, ?_⟩
    · intro c hc; rw [List.eq_of_mem_replicate hc]; simp
    · intro x y
      have key : ∀ x y, ∀ c, M.upper ⟨List.replicate (n * (n - 1) / 2) .zero, n⟩ x y = .ok c → c = .zero := by
        intro x y c hc
        simp only [M.upper, bind_ok, orErr_ok] at hc
        obtain ⟨i, _, hi⟩ := hc
        exact List.eq_of_mem_replicate (List.mem_of_getElem? hi)
      unfold M.val M.get
      split
      · rename_i c hc
        split at hc
        · simp only [bind_ok, Except.ok.injEq] at hc
          obtain ⟨a, ha, rfl⟩ := hc
          rw [key _ _ _ ha]; rfl
        · rw [key _ _ _ hc]; rfl
      · rfl
  · cases h

theorem increment_val {c c' : Cell} {a : Nat} (h : c.increment a = .ok c') :
    cellValue c' = cellValue c + a := by
  unfold Cell.increment at h
  cases c with
  | positive n =>
    simp only [bind_ok, add128_ok, Except.ok.injEq] at h
    obtain ⟨_, ⟨_, rfl⟩, rfl⟩ := h
    simp [cellValue]
  | zero => injection h with h; subst h; simp [cellValue]
  | negative n =>
    simp only at h
    split at h
    · injection h with h; subst h; simp only [cellValue]; omega
    · split at h <;> (injection h with h; subst h; simp only [cellValue]; omega)

theorem decrement_val {c c' : Cell} {a : Nat} (h : c.decrement a = .ok c') :
    cellValue c' = cellValue c - a := by
  unfold Cell.decrement at h
  cases c with
  | negative n =>
    simp only [bind_ok, add128_ok, Except.ok.injEq] at h
    obtain ⟨_, ⟨_, rfl⟩, rfl⟩ := h
    simp only [cellValue]; omega
  | zero => injection h with h; subst h; simp [cellValue]
  | positive n =>
    simp only at h
    split at h
    · injection h with h; subst h; simp only [cellValue]; omega
    · split at h <;> (injection h with h; subst h; simp only [cellValue]; omega)

theorem increment_nz {c c' : Cell} {a : Nat} (ha : a ≠ 0) (h : c.increment a = .ok c') :
    c' ≠ .positive 0 ∧ c' ≠ .negative 0 := by
  unfold Cell.increment at h
  cases c with
  | positive n =>
    simp only [bind_ok, add128_ok, Except.ok.injEq] at h
    obtain ⟨_, ⟨_, rfl⟩, rfl⟩ := h
    simp; omega
  | zero => injection h with h; subst h; simp [ha]
  | negative n =>
    simp only at h
    split at h
    · injection h with h; subst h; simp
    · split at h <;> (injection h with h; subst h; simp; omega)

theorem decrement_nz {c c' : Cell} {a : Nat} (ha : a ≠ 0) (h : c.decrement a = .ok c') :
    c' ≠ .positive 0 ∧ c' ≠ .negative 0 := by
  unfold Cell.decrement at h
  cases c with
  | negative n =>
    simp only [bind_ok, add128_ok, Except.ok.injEq] at h
    obtain ⟨_, ⟨_, rfl⟩, rfl⟩ := h
    simp; omega
  | zero => injection h with h; subst h; simp [ha]
  | positive n =>
    simp only at h
    split at h
    · injection h with h; subst h; simp
    · split at h <;> (injection h with h; subst h; simp; omega)

theorem increment_total {c : Cell} {a : Nat} (h : cellValue c + a < U128) :
    ∃ c', c.increment a = .ok c' := by
  cases c with
  | positive n =>
    simp only [cellValue] at h
    exact ⟨.positive (n + a), by simp only [Cell.increment, add128]; rw [if_pos (by omega)]; rfl⟩
  | zero => exact ⟨_, rfl⟩
  | negative n => unfold Cell.increment; simp only; split; exact ⟨_, rfl⟩; split <;> exact ⟨_, rfl⟩

theorem decrement_total {c : Cell} {a : Nat} (h : - (U128 : Int) < cellValue c - a) :
    ∃ c', c.decrement a = .ok c' := by
  cases c with
  | negative n =>
    simp only [cellValue] at h
    exact ⟨.negative (n + a), by simp only [Cell.decrement, add128]; rw [if_pos (by omega)]; rfl⟩
  | zero => exact ⟨_, rfl⟩
  | positive n => unfold Cell.decrement; simp only; split; exact ⟨_, rfl⟩; split <;> exact ⟨_, rfl⟩

/-- The effect of replacing one cell. -/
theorem bump_spec {m m' : M} {f : Cell → Res Cell} {x y : Nat} (hm : m.Ok) (hy : y < x) (hx : x < m.n)
    (hf : ∀ c c', f c = .ok c' → c' ≠ .positive 0 ∧ c' ≠ .negative 0) {d : Int}
    (hd : ∀ c c', f c = .ok c' → cellValue c' = cellValue c + d)
    (h : m.bump x y f = .ok m') :
    m'.Ok ∧ m'.n = m.n ∧
      (∀ p q, p < m.n → q < m.n → p ≠ q → m'.val p q =
        m.val p q + (if p = x ∧ q = y then d else 0) - (if p = y ∧ q = x then d else 0)) := by
  simp only [M.bump, index_eq m hy, ok_bind, bind_ok, orErr_ok, Except.ok.injEq] at h
  obtain ⟨c, hc, c', hc', rfl⟩ := h
  refine ⟨⟨by simpa using hm.len, ?_⟩, rfl, ?_⟩
  · intro e he
    rcases List.mem_or_eq_of_mem_set he with he | rfl
    · exact hm.pos e he
    · exact hf c _ hc'
  · -- the upper triangle
    have up : ∀ p q, q < p → p < m.n →
        M.val { m with cells := m.cells.set (rowStart m.n y + (x - (y + 1))) c' } p q =
          m.val p q + (if p = x ∧ q = y then d else 0) := by
      intro p q hq hp
      have hnlt : ¬ p < q := by omega
      obtain ⟨e, he1, he2, _⟩ := upper_eq hm hq hp
      have hl := (List.getElem?_eq_some_iff.1 hc).1
      have hold : m.val p q = cellValue e := by
        unfold M.val M.get; simp only [hnlt, if_false, he2]
      rw [hold]
      unfold M.val M.get
      simp only [hnlt, if_false, M.upper, index_eq _ hq, ok_bind, List.getElem?_set]
      by_cases heq : p = x ∧ q = y
      · obtain ⟨rfl, rfl⟩ := heq
        rw [he1] at hc; injection hc with hc; subst hc
        simp only [hl, if_true, orErr, and_self]
        exact hd _ _ hc'
      · have hne : ¬ (rowStart m.n y + (x - (y + 1)) = rowStart m.n q + (p - (q + 1))) := by
          intro h
          have := index_inj hy hx hq hp h
          exact heq ⟨this.1.symm, this.2.symm⟩
        simp only [hne, if_false, he1, orErr, heq]; omega
    intro p q hp hq hpq
    rcases Nat.lt_or_gt_of_ne hpq with hlt | hgt
    · have h1 := up q p hlt hq
      have h2 := val_antisymm (m := { m with cells := m.cells.set (rowStart m.n y + (x - (y + 1))) c' }) p q
      have h3 := val_antisymm (m := m) p q
      have h4 : ¬ (p = x ∧ q = y) := by omega
      have h5 : (p = y ∧ q = x) ↔ (q = x ∧ p = y) := and_comm
      simp only [h4, if_false, h5]; omega
    · have h1 := up p q hgt hp
      have h4 : ¬ (p = y ∧ q = x) := by omega
      simp only [h4, if_false]; omega

theorem decrement_spec {m m' : M} {x y a : Nat} (hm : m.Ok) (hxy : x ≠ y) (hx : x < m.n) (hy : y < m.n)
    (ha : a ≠ 0) (h : m.decrement x y a = .ok m') :
    m'.Ok ∧ m'.n = m.n ∧
      (∀ p q, p < m.n → q < m.n → p ≠ q → m'.val p q =
        m.val p q - (if p = x ∧ q = y then (a : Int) else 0) + (if p = y ∧ q = x then (a : Int) else 0)) := by
  unfold M.decrement at h
  split at h
  · rename_i hlt
    obtain ⟨h1, h2, h3⟩ := bump_spec hm hlt hy (fun c c' hc => increment_nz ha hc) (d := a)
      (fun c c' hc => increment_val hc) h
    refine ⟨h1, h2, fun p q hp hq hpq => ?_⟩
    rw [h3 p q hp hq hpq]; omega
  · rename_i hlt
    obtain ⟨h1, h2, h3⟩ := bump_spec hm (show y < x by omega) hx (fun c c' hc => decrement_nz ha hc)
      (d := -(a : Int)) (fun c c' hc => by rw [decrement_val hc]; omega) h
    refine ⟨h1, h2, fun p q hp hq hpq => ?_⟩
    rw [h3 p q hp hq hpq]
    split <;> split <;> omega

theorem bump_total {m : M} {f : Cell → Res Cell} {x y : Nat} (hm : m.Ok) (hy : y < x) (hx : x < m.n)
    (hf : ∀ c, cellValue c = m.val x y → ∃ c', f c = .ok c') : ∃ m', m.bump x y f = .ok m' := by
  obtain ⟨c, h1, h2, _⟩ := upper_eq hm hy hx
  have hv : cellValue c = m.val x y := by
    unfold M.val M.get; rw [if_neg (by omega), h2]
  obtain ⟨c', hc'⟩ := hf c hv
  exact ⟨{ m with cells := m.cells.set (rowStart m.n y + (x - (y + 1))) c' }, by
    simp only [M.bump, index_eq m hy, ok_bind, h1, orErr, hc']⟩

theorem decrement_m_total {m : M} {x y a : Nat} (hm : m.Ok) (hxy : x ≠ y) (hx : x < m.n) (hy : y < m.n)
    (hb : - (U128 : Int) < m.val x y - a) : ∃ m', m.decrement x y a = .ok m' := by
  unfold M.decrement
  split
  · rename_i hlt
    refine bump_total hm hlt hy fun c hc => increment_total ?_
    rw [hc, val_antisymm]; omega
  · exact bump_total hm (by omega) hx fun c hc => decrement_total (by rw [hc]; exact hb)

end Verif.Condorcet
