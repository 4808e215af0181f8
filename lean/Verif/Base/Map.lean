/-!
# Finite maps as association lists

`cw_storage_plus::Map` and `Item` keyed storage. The order of keys is irrelevant except where
pagination is studied (`Verif.Model.Paginate`).
-/

namespace Verif

/-- A storage map. -/
abbrev AMap (K V : Type) := List (K × V)

namespace AMap
variable {K V : Type} [DecidableEq K]

/-- `Map::may_load`. -/
def get : AMap K V → K → Option V
  | [], _ => none
  | (k, v) :: m, q => if k = q then some v else get m q

/-- `Map::save`: replace in place, or append. -/
def set : AMap K V → K → V → AMap K V
  | [], q, w => [(q, w)]
  | (k, v) :: m, q, w => if k = q then (k, w) :: m else (k, v) :: set m q w

/-- `Map::remove`. -/
def erase : AMap K V → K → AMap K V
  | [], _ => []
  | (k, v) :: m, q => if k = q then erase m q else (k, v) :: erase m q

/-- Every key is stored once. -/
def WF (m : AMap K V) : Prop := (m.map Prod.fst).Nodup

/-- Sum of `f` over all entries. -/
def sum (f : K → V → Nat) : AMap K V → Nat
  | [] => 0
  | (k, v) :: m => f k v + sum f m

theorem get_set (m : AMap K V) (k q : K) (v : V) :
    (m.set k v).get q = if k = q then some v else m.get q := by
  induction m with
  | nil => simp [set, get]
  | cons a m ih =>
    obtain ⟨k', v'⟩ := a
    by_cases h : k' = k
    · subst h; by_cases h2 : k' = q <;> simp [set, get, h2]
    · by_cases h2 : k' = q
      · subst h2
        have h' : ¬ k = k' := fun h' => h h'.symm
        simp [set, get, h, h']
      · simp [set, get, h, h2, ih]

@[simp] theorem get_set_self (m : AMap K V) (k : K) (v : V) : (m.set k v).get k = some v := by
  simp [get_set]

theorem get_set_ne (m : AMap K V) {k q : K} (v : V) (h : k ≠ q) :
    (m.set k v).get q = m.get q := by
  simp [get_set, h]

theorem get_erase (m : AMap K V) (k q : K) :
    (m.erase k).get q = if k = q then none else m.get q := by
  induction m with
  | nil => simp [erase, get]
  | cons a m ih =>
    obtain ⟨k', v'⟩ := a
    by_cases h : k' = k
    · subst h; by_cases h2 : k' = q <;> simp_all [erase, get]
    · by_cases h2 : k' = q
      · subst h2
        have h' : ¬ k = k' := fun h' => h h'.symm
        simp [erase, get, h, h']
      · simp [erase, get, h, h2, ih]

theorem mem_keys_iff (m : AMap K V) (k : K) : k ∈ m.map Prod.fst ↔ (m.get k).isSome := by
  induction m with
  | nil => simp [get]
  | cons a m ih =>
    obtain ⟨k', v'⟩ := a
    by_cases h : k' = k
    · subst h; simp [get]
    · have : k ≠ k' := fun h' => h h'.symm
      simp only [List.map_cons, List.mem_cons, this, false_or, get, h, if_false]; exact ih

theorem get_of_mem {m : AMap K V} (hm : m.WF) {k : K} {v : V} (h : (k, v) ∈ m) :
    m.get k = some v := by
  induction m with
  | nil => simp at h
  | cons a m ih =>
    obtain ⟨k', v'⟩ := a
    simp only [WF, List.map_cons, List.nodup_cons] at hm
    rcases List.mem_cons.1 h with h | h
    · injection h with h1 h2; subst h1; subst h2; simp [get]
    · have : k' ≠ k := by
        intro hk; subst hk
        exact hm.1 (List.mem_map.2 ⟨_, h, rfl⟩)
      simp only [get, this, if_false]; exact ih hm.2 h

theorem mem_of_get {m : AMap K V} {k : K} {v : V} (h : m.get k = some v) : (k, v) ∈ m := by
  induction m with
  | nil => simp [get] at h
  | cons a m ih =>
    obtain ⟨k', v'⟩ := a
    by_cases hk : k' = k
    · subst hk; simp [get] at h; simp [h]
    · simp [get, hk] at h; exact List.mem_cons_of_mem _ (ih h)

theorem keys_set (m : AMap K V) (k q : K) (v : V) :
    q ∈ (m.set k v).map Prod.fst ↔ q = k ∨ q ∈ m.map Prod.fst := by
  rw [mem_keys_iff, mem_keys_iff, get_set]
  by_cases h : k = q
  · subst h; simp
  · have h' : ¬ q = k := fun h' => h h'.symm
    simp [h, h']

omit [DecidableEq K] in
theorem WF_nil : WF ([] : AMap K V) := by simp [WF]

theorem WF_set {m : AMap K V} (hm : m.WF) (k : K) (v : V) : (m.set k v).WF := by
  induction m with
  | nil => simp [set, WF]
  | cons a m ih =>
    obtain ⟨k', v'⟩ := a
    have hm' := hm
    simp only [WF, List.map_cons, List.nodup_cons] at hm
    by_cases h : k' = k
    · subst h; simpa [set, WF] using hm
    · simp only [set, h, if_false, WF, List.map_cons, List.nodup_cons]
      refine ⟨?_, ih hm.2⟩
      rw [keys_set]; rintro (h' | h')
      · exact h h'
      · exact hm.1 h'

theorem keys_erase_sub (m : AMap K V) (k q : K) :
    q ∈ (m.erase k).map Prod.fst → q ∈ m.map Prod.fst ∧ q ≠ k := by
  rw [mem_keys_iff, mem_keys_iff, get_erase]
  by_cases h : k = q
  · simp [h]
  · simp only [h, if_false]; intro h'; exact ⟨h', fun h'' => h h''.symm⟩

theorem WF_erase {m : AMap K V} (hm : m.WF) (k : K) : (m.erase k).WF := by
  induction m with
  | nil => simp [erase, WF]
  | cons a m ih =>
    obtain ⟨k', v'⟩ := a
    simp only [WF, List.map_cons, List.nodup_cons] at hm
    by_cases h : k' = k
    · simp only [erase, h, if_true]; exact ih hm.2
    · simp only [erase, h, if_false, WF, List.map_cons, List.nodup_cons]
      exact ⟨fun h' => hm.1 (keys_erase_sub m k k' h').1, ih hm.2⟩

/-- Contribution of key `k` to the sum. -/
def at? (f : K → V → Nat) (m : AMap K V) (k : K) : Nat :=
  match m.get k with
  | some v => f k v
  | none => 0

theorem sum_set (f : K → V → Nat) (m : AMap K V) (k : K) (v : V) :
    sum f (m.set k v) + at? f m k = sum f m + f k v := by
  induction m with
  | nil => simp [set, sum, at?, get]
  | cons a m ih =>
    obtain ⟨k', v'⟩ := a
    by_cases h : k' = k
    · subst h; simp [set, sum, at?, get]; omega
    · simp only [set, h, if_false, sum, at?, get] at ih ⊢; omega

theorem sum_erase (f : K → V → Nat) {m : AMap K V} (hm : m.WF) (k : K) :
    sum f (m.erase k) + at? f m k = sum f m := by
  induction m with
  | nil => simp [erase, sum, at?, get]
  | cons a m ih =>
    obtain ⟨k', v'⟩ := a
    simp only [WF, List.map_cons, List.nodup_cons] at hm
    have ih := ih hm.2
    by_cases h : k' = k
    · subst h
      have hn : AMap.get m k' = none := by
        have := hm.1; rw [mem_keys_iff] at this; simpa using this
      simp only [erase, if_true, sum, at?, get, hn] at ih ⊢; omega
    · simp only [erase, h, if_false, sum, at?, get] at ih ⊢; omega

theorem at_le_sum (f : K → V → Nat) (m : AMap K V) (k : K) : at? f m k ≤ sum f m := by
  induction m with
  | nil => simp [at?, get]
  | cons a m ih =>
    obtain ⟨k', v'⟩ := a
    by_cases h : k' = k
    · subst h; simp [sum, at?, get]
    · simp only [sum, at?, get, h, if_false] at ih ⊢; omega

theorem at_add_at_le_sum (f : K → V → Nat) (m : AMap K V) {k q : K} (hkq : k ≠ q) :
    at? f m k + at? f m q ≤ sum f m := by
  induction m with
  | nil => simp [at?, get]
  | cons a m ih =>
    obtain ⟨k', v'⟩ := a
    by_cases h : k' = k
    · subst h
      have := at_le_sum f m q
      simp only [sum, at?, get, if_true, hkq, if_false] at this ⊢; omega
    · by_cases h2 : k' = q
      · subst h2
        have := at_le_sum f m k
        simp only [sum, at?, get, if_true, h, if_false] at this ⊢; omega
      · simp only [sum, at?, get, h, h2, if_false] at ih ⊢; omega

omit [DecidableEq K] in
theorem sum_add (f g : K → V → Nat) (m : AMap K V) :
    sum (fun k v => f k v + g k v) m = sum f m + sum g m := by
  induction m with
  | nil => simp [sum]
  | cons a m ih => obtain ⟨k', v'⟩ := a; simp [sum, ih]; omega

omit [DecidableEq K] in
theorem sum_le {f g : K → V → Nat} {m : AMap K V} (h : ∀ k v, (k, v) ∈ m → f k v ≤ g k v) :
    sum f m ≤ sum g m := by
  induction m with
  | nil => simp [sum]
  | cons a m ih =>
    obtain ⟨k', v'⟩ := a
    have h1 := h k' v' (by simp)
    have h2 := ih (fun k v hk => h k v (List.mem_cons_of_mem _ hk))
    simp only [sum]; omega

omit [DecidableEq K] in
theorem sum_congr {f g : K → V → Nat} {m : AMap K V} (h : ∀ k v, (k, v) ∈ m → f k v = g k v) :
    sum f m = sum g m := by
  induction m with
  | nil => simp [sum]
  | cons a m ih =>
    obtain ⟨k', v'⟩ := a
    have h1 := h k' v' (by simp)
    have h2 := ih (fun k v hk => h k v (List.mem_cons_of_mem _ hk))
    simp only [sum]; omega

omit [DecidableEq K] in
theorem sum_eq_list (f : K → V → Nat) (m : AMap K V) :
    sum f m = (m.map (fun e => f e.1 e.2)).sum := by
  induction m with
  | nil => rfl
  | cons a m ih => obtain ⟨k, v⟩ := a; simp [sum, ih]

theorem set_eq_of_get {m : AMap K V} {k : K} {v : V} (h : m.get k = some v) : m.set k v = m := by
  induction m with
  | nil => simp [get] at h
  | cons a m ih =>
    obtain ⟨k', v'⟩ := a
    by_cases hk : k' = k
    · simp [get, hk] at h; simp [set, hk, h]
    · simp [get, hk] at h; simp [set, hk, ih h]

end AMap

/-- `unwrap_or_default` on a numeric entry. -/
def getD0 {K : Type} [DecidableEq K] (m : AMap K Nat) (k : K) : Nat := (m.get k).getD 0

theorem at_val {K : Type} [DecidableEq K] (m : AMap K Nat) (k : K) :
    AMap.at? (fun _ v => v) m k = getD0 m k := by
  unfold AMap.at? getD0; cases m.get k <;> rfl

/-- Sum of all values. -/
def total {K : Type} (m : AMap K Nat) : Nat := (m.map Prod.snd).sum

theorem total_eq {K : Type} [DecidableEq K] (m : AMap K Nat) :
    total m = AMap.sum (fun _ v => v) m := by
  rw [AMap.sum_eq_list]; rfl

theorem total_set {K : Type} [DecidableEq K] (m : AMap K Nat) (k : K) (v : Nat) :
    total (m.set k v) + getD0 m k = total m + v := by
  rw [total_eq, total_eq, ← at_val, AMap.sum_set]

theorem total_erase {K : Type} [DecidableEq K] {m : AMap K Nat} (hm : m.WF) (k : K) :
    total (m.erase k) + getD0 m k = total m := by
  rw [total_eq, total_eq, ← at_val, AMap.sum_erase _ hm]

theorem getD0_le_total {K : Type} [DecidableEq K] (m : AMap K Nat) (k : K) :
    getD0 m k ≤ total m := by
  rw [total_eq, ← at_val]; exact AMap.at_le_sum _ _ _

theorem getD0_set {K : Type} [DecidableEq K] (m : AMap K Nat) (k q : K) (v : Nat) :
    getD0 (m.set k v) q = if k = q then v else getD0 m q := by
  unfold getD0; rw [AMap.get_set]; split <;> rfl

end Verif
