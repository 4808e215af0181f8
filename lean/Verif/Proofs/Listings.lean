import Verif.Spec.Listings
import Verif.Props.Paginate
/-! Pages of a map, followed to their end. -/

namespace Verif.Listings
open Verif Verif.Paginate
open Verif.Spec.Listings
open Verif.Spec.Paginate (InOrder)

variable {V W : Type}

theorem pages_unique {page : Option Nat → Res (List (Nat × V))} {start : Option Nat} {l l' : List (Nat × V)}
    (h : Pages page start l) (h' : Pages page start l') : l = l' := by
  induction h generalizing l' with
  | done h =>
    cases h' with
    | done => rfl
    | more h2 hl hr => rw [h] at h2; injection h2 with h2; subst h2; simp at hl
  | more h hl hr ih =>
    cases h' with
    | done h2 => rw [h] at h2; injection h2 with h2; subst h2; simp at hl
    | more h2 hl2 hr2 =>
      rw [h] at h2; injection h2 with h2; subst h2
      rw [hl] at hl2; injection hl2 with hl2; subst hl2
      rw [ih hr2]

theorem mapM_ok {X Y : Type} {f : X → Res Y} {g : X → Y} {l : List X} (h : ∀ x ∈ l, f x = .ok (g x)) :
    l.mapM f = .ok (l.map g) := by
  induction l with
  | nil => rfl
  | cons x l ih =>
    rw [List.mapM_cons, h x (List.mem_cons_self ..), ok_bind, ih (fun y hy => h y (List.mem_cons_of_mem _ hy)), ok_bind]
    rfl

/-- Following the pages of a map shows the whole map. What is shown of an entry may depend on its key. -/
theorem pages_keyed {m : AMap Nat V} (hm : AMap.WF m) {o : Order} {n : Nat} (hn : 0 < n)
    {page : Option Nat → Res (List (Nat × W))} {g : Nat × V → W}
    (hp : ∀ start, page start = .ok (((range m start o).take n).map (fun x => (x.1, g x)))) (start : Option Nat) :
    Pages page start ((range m start o).map (fun x => (x.1, g x))) := by
  suffices H : ∀ fuel start, (range m start o).length < fuel →
      Pages page start ((range m start o).map (fun x => (x.1, g x))) from
    H ((range m start o).length + 1) start (Nat.lt_succ_self _)
  intro fuel
  induction fuel with
  | zero => intro start h; omega
  | succ fuel ih =>
    intro start hf
    rcases hl : ((range m start o).take n).getLast? with _ | p
    · have e : (range m start o).take n = [] := List.getLast?_eq_none_iff.1 hl
      have e2 : range m start o = [] := by
        rcases List.take_eq_nil_iff.1 e with h | h
        · omega
        · exact h
      rw [e2]
      refine .done ?_
      rw [hp, e2]; simp
    · have hmem : p ∈ range m start o := List.mem_of_mem_take (List.mem_of_getLast? hl)
      have hk := (mem_range.1 hmem).2
      have hrest : range m (some p.1) o = (range m start o).drop n := by
        rw [range_rest hk]; exact filter_after (range_inOrder hm start o) hl
      have hlen : (range m (some p.1) o).length < fuel := by
        rw [hrest, List.length_drop]
        have := List.length_pos_of_mem hmem
        omega
      have := ih (some p.1) hlen
      have e : (range m start o).map (fun x => (x.1, g x)) =
          ((range m start o).take n).map (fun x => (x.1, g x)) ++
            (range m (some p.1) o).map (fun x => (x.1, g x)) := by
        rw [hrest, ← List.map_append, List.take_append_drop]
      rw [e]
      refine Pages.more (last := (p.1, g p)) (hp start) ?_ this
      rw [List.getLast?_map, hl]; rfl

/-- Following the pages of a map shows the whole map. -/
theorem pages_range {m : AMap Nat V} (hm : AMap.WF m) {o : Order} {n : Nat} (hn : 0 < n)
    {page : Option Nat → Res (List (Nat × W))} {g : V → W}
    (hp : ∀ start, page start = .ok (((range m start o).take n).map (fun x => (x.1, g x.2)))) (start : Option Nat) :
    Pages page start ((range m start o).map (fun x => (x.1, g x.2))) :=
  pages_keyed (g := fun x => g x.2) hm hn hp start

theorem map_id_pair (l : List (Nat × V)) : l.map (fun x => (x.1, x.2)) = l := by simp

/-- The same for pages that show entries as they are. -/
theorem pages_plain {m : AMap Nat V} (hm : AMap.WF m) {o : Order} {n : Nat} (hn : 0 < n)
    {page : Option Nat → Res (List (Nat × V))}
    (hp : ∀ start, page start = .ok ((range m start o).take n)) : Pages page none (range m none o) := by
  have := pages_range (g := fun v : V => v) hm hn (page := page) (o := o)
    (fun start => by rw [hp]; simp) none
  simpa using this

/-- `paginateMap` pages. -/
theorem pages_paginate {m : AMap Nat V} (hm : AMap.WF m) {o : Order} {limit : Option Nat} (hl : limit ≠ some 0)
    {page : Option Nat → Res (List (Nat × V))}
    (hp : ∀ start, page start = .ok (paginateMap m start limit o)) : Pages page none (range m none o) := by
  cases limit with
  | some l => exact pages_plain hm (n := l) (by cases l <;> simp at hl ⊢) hp
  | none =>
    refine pages_plain hm (n := m.length + 1) (by omega) (fun start => ?_)
    rw [hp]
    show _ = Except.ok (List.take _ _)
    rw [List.take_of_length_le]
    · rfl
    · exact Nat.le_succ_of_le range_length

theorem mem_all {m : AMap Nat V} (hm : AMap.WF m) {o : Order} {k : Nat} {v : V} :
    (k, v) ∈ range m none o ↔ m.get k = some v := by
  rw [mem_range]
  constructor
  · intro h; exact AMap.get_of_mem hm h.1
  · intro h; exact ⟨AMap.mem_of_get h, by cases o <;> rfl⟩

theorem sorted_perm (m : AMap Nat V) : (sorted m).Perm m := by
  induction m with
  | nil => exact .refl _
  | cons a m ih =>
    have hin : ∀ l : List (Nat × V), (Paginate.insert a l).Perm (a :: l) := by
      intro l
      induction l with
      | nil => exact .refl _
      | cons q l ih2 =>
        unfold Paginate.insert
        split
        · exact .refl _
        · exact (List.Perm.cons q ih2).trans (List.Perm.swap a q l)
    exact (hin _).trans (List.Perm.cons a ih)

theorem range_perm (m : AMap Nat V) (o : Order) : (range m none o).Perm m := by
  have e : ∀ l : List (Nat × V), l.filter (fun p => within o none p.1) = l := by
    intro l; rw [List.filter_eq_self]; intro a _; cases o <;> rfl
  cases o with
  | asc => show ((sorted m).filter _).Perm m; rw [e]; exact sorted_perm m
  | desc =>
    show ((sorted m).reverse.filter _).Perm m
    rw [e]; exact (List.reverse_perm _).trans (sorted_perm m)

/-- Two ascending lists with the same members are the same. -/
theorem asc_ext {l l' : List Nat} (h : l.Pairwise (· < ·)) (h' : l'.Pairwise (· < ·)) (hm : ∀ x, x ∈ l ↔ x ∈ l') :
    l = l' := by
  induction l generalizing l' with
  | nil =>
    cases l' with
    | nil => rfl
    | cons b l' => exact absurd ((hm b).2 (List.mem_cons_self ..)) (by simp)
  | cons a l ih =>
    cases l' with
    | nil => exact absurd ((hm a).1 (List.mem_cons_self ..)) (by simp)
    | cons b l' =>
      rw [List.pairwise_cons] at h h'
      have e : a = b := by
        rcases List.mem_cons.1 ((hm a).1 (List.mem_cons_self ..)) with e | h1
        · exact e
        · rcases List.mem_cons.1 ((hm b).2 (List.mem_cons_self ..)) with e | h2
          · exact e.symm
          · have := h.1 b h2; have := h'.1 a h1; omega
      subst e
      rw [ih h.2 h'.2]
      intro x
      constructor
      · intro hx
        rcases List.mem_cons.1 ((hm x).1 (List.mem_cons_of_mem _ hx)) with e | hx'
        · subst e; exact absurd (h.1 x hx) (Nat.lt_irrefl _)
        · exact hx'
      · intro hx
        rcases List.mem_cons.1 ((hm x).2 (List.mem_cons_of_mem _ hx)) with e | hx'
        · subst e; exact absurd (h'.1 x hx) (Nat.lt_irrefl _)
        · exact hx'

/-- The keys of a map that has the numbers from 1 to `n`. -/
theorem keys_asc {m : AMap Nat V} (hm : AMap.WF m) {n : Nat}
    (hk : ∀ k, (m.get k).isSome = true ↔ 1 ≤ k ∧ k ≤ n) :
    (range m none .asc).map Prod.fst = List.range' 1 n := by
  have hs : ((range m none .asc).map Prod.fst).Pairwise (· < ·) := by
    rw [List.pairwise_map]; exact range_inOrder hm none .asc
  refine asc_ext hs (List.pairwise_lt_range' ..) ?_
  intro x
  rw [List.mem_range'_1]
  have : x ∈ (range m none .asc).map Prod.fst ↔ (m.get x).isSome = true := by
    constructor
    · intro h
      obtain ⟨p, hp, rfl⟩ := List.mem_map.1 h
      rw [(mem_all hm).1 hp]; rfl
    · intro h
      obtain ⟨v, hv⟩ := Option.isSome_iff_exists.1 h
      exact List.mem_map.2 ⟨(x, v), (mem_all hm).2 hv, rfl⟩
  rw [this, hk]; omega

theorem range_desc (m : AMap Nat V) : range m none .desc = (range m none .asc).reverse := by
  show (sorted m).reverse.filter _ = ((sorted m).filter _).reverse
  rw [List.filter_reverse]; rfl

variable {K : Type} [DecidableEq K]

theorem mem_under {m : AMap (K × Nat) V} {k : K} {x : Nat} {v : V} : (x, v) ∈ under m k ↔ ((k, x), v) ∈ m := by
  unfold under
  rw [List.mem_filterMap]
  constructor
  · rintro ⟨⟨⟨k', x'⟩, v'⟩, hy, h⟩
    by_cases e : k' = k
    · simp only [e, if_true, Option.some.injEq, Prod.mk.injEq] at h
      obtain ⟨h1, h2⟩ := h
      rw [e, h1, h2] at hy; exact hy
    · simp [e] at h
  · intro h
    exact ⟨_, h, by simp⟩

theorem under_WF {m : AMap (K × Nat) V} (hm : AMap.WF m) (k : K) : AMap.WF (under m k) := by
  induction m with
  | nil => exact AMap.WF_nil
  | cons a m ih =>
    unfold AMap.WF at hm
    rw [List.map_cons, List.nodup_cons] at hm
    have ih := ih hm.2
    by_cases e : a.1.1 = k
    · have : under (a :: m) k = (a.1.2, a.2) :: under m k := by unfold under; simp [e]
      rw [this]
      unfold AMap.WF
      rw [List.map_cons, List.nodup_cons]
      refine ⟨?_, ih⟩
      intro hx
      obtain ⟨⟨x, v⟩, hq, he⟩ := List.mem_map.1 hx
      have hq := mem_under.1 hq
      apply hm.1
      refine List.mem_map.2 ⟨_, hq, ?_⟩
      simp only at he
      rw [he, ← e]
    · have : under (a :: m) k = under m k := by unfold under; simp [e]
      rw [this]; exact ih

theorem get_under {m : AMap (K × Nat) V} (hm : AMap.WF m) (k : K) (x : Nat) : (under m k).get x = m.get (k, x) := by
  rcases h : m.get (k, x) with _ | v
  · rcases h2 : (under m k).get x with _ | v
    · rfl
    · have := AMap.get_of_mem hm (mem_under.1 (AMap.mem_of_get h2))
      rw [h] at this; simp at this
  · exact AMap.get_of_mem (under_WF hm k) (mem_under.2 (AMap.mem_of_get h))

theorem sum_under (f : Nat → V → Nat) (m : AMap (K × Nat) V) (k : K) :
    ((under m k).map (fun x => f x.1 x.2)).sum = AMap.sum (fun key v => if key.1 = k then f key.2 v else 0) m := by
  induction m with
  | nil => rfl
  | cons a m ih =>
    by_cases e : a.1.1 = k
    · have : under (a :: m) k = (a.1.2, a.2) :: under m k := by unfold under; simp [e]
      rw [this, List.map_cons, List.sum_cons, ih]
      simp [AMap.sum, e]
    · have : under (a :: m) k = under m k := by unfold under; simp [e]
      rw [this, ih]
      simp [AMap.sum, e]

end Verif.Listings
