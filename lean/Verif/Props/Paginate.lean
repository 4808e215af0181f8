import Verif.Spec.Paginate
/-!
# C59: pagination visits every entry exactly once
-/

namespace Verif.Paginate
open Spec.Paginate

variable {V : Type}

theorem mem_insert {p q : Nat × V} {l : List (Nat × V)} : q ∈ insert p l ↔ q = p ∨ q ∈ l := by
  induction l with
  | nil => simp [insert]
  | cons a l ih =>
    unfold insert
    split
    · simp
    · simp [ih]; constructor
      · rintro (h | h | h) <;> simp [h]
      · rintro (h | h | h) <;> simp [h]

theorem mem_sorted {m : AMap Nat V} {q : Nat × V} : q ∈ sorted m ↔ q ∈ m := by
  induction m with
  | nil => simp [sorted]
  | cons a m ih =>
    show q ∈ insert a (sorted m) ↔ _
    rw [mem_insert, ih]; simp

theorem insert_sorted {p : Nat × V} {l : List (Nat × V)} (h : l.Pairwise (fun p q => p.1 < q.1))
    (hp : ∀ q ∈ l, q.1 ≠ p.1) : (insert p l).Pairwise (fun p q => p.1 < q.1) := by
  induction l with
  | nil => simp [insert]
  | cons a l ih =>
    rw [List.pairwise_cons] at h
    unfold insert
    split
    · rename_i hle
      have hlt : p.1 < a.1 := Nat.lt_of_le_of_ne hle (fun e => hp a (List.mem_cons_self ..) e.symm)
      rw [List.pairwise_cons, List.pairwise_cons]
      refine ⟨?_, h⟩
      intro q hq
      rcases List.mem_cons.1 hq with rfl | hq
      · exact hlt
      · exact Nat.lt_trans hlt (h.1 q hq)
    · rename_i hle
      rw [List.pairwise_cons]
      refine ⟨?_, ih h.2 (fun q hq => hp q (List.mem_cons_of_mem _ hq))⟩
      intro q hq
      rcases mem_insert.1 hq with rfl | hq
      · omega
      · exact h.1 q hq

theorem sorted_sorted {m : AMap Nat V} (hm : AMap.WF m) : (sorted m).Pairwise (fun p q => p.1 < q.1) := by
  induction m with
  | nil => simp [sorted]
  | cons a m ih =>
    unfold AMap.WF at hm
    rw [List.map_cons, List.nodup_cons] at hm
    refine insert_sorted (ih hm.2) ?_
    intro q hq he
    have hq : q ∈ m := mem_sorted.1 hq
    exact hm.1 (by rw [← he]; exact List.mem_map.2 ⟨q, hq, rfl⟩)

theorem range_inOrder {m : AMap Nat V} (hm : AMap.WF m) (start : Option Nat) (o : Order) :
    InOrder o (range m start o) := by
  cases o with
  | asc => exact (sorted_sorted hm).filter _
  | desc =>
    refine List.Pairwise.filter _ ?_
    rw [List.pairwise_reverse]
    exact sorted_sorted hm

theorem mem_range {m : AMap Nat V} {start : Option Nat} {o : Order} {p : Nat × V} :
    p ∈ range m start o ↔ p ∈ m ∧ within o start p.1 = true := by
  cases o <;> simp [range, List.mem_filter, mem_sorted]

/-- Entries after a key that is in the range of a start. -/
theorem range_rest {m : AMap Nat V} {start : Option Nat} {o : Order} {k : Nat} (hk : within o start k = true) :
    range m (some k) o = (range m start o).filter (fun p => within o (some k) p.1) := by
  have key : ∀ x : Nat, within o (some k) x = true → within o start x = true := by
    intro x hx
    cases start with
    | none => rfl
    | some s =>
      cases o <;> simp only [within, decide_eq_true_eq] at * <;> omega
  cases o with
  | asc =>
    simp only [range, List.filter_filter]
    refine List.filter_congr ?_
    intro p _
    have := key p.1
    cases h1 : within .asc (some k) p.1 <;> simp_all
  | desc =>
    simp only [range, List.filter_filter]
    refine List.filter_congr ?_
    intro p _
    have := key p.1
    cases h1 : within .desc (some k) p.1 <;> simp_all

/-- In an ordered list the entries after the last of the first `l` are the ones that were not taken. -/
theorem filter_after {o : Order} {l : List (Nat × V)} {n : Nat} {p : Nat × V} (h : InOrder o l)
    (hp : (l.take n).getLast? = some p) : l.filter (fun q => within o (some p.1) q.1) = l.drop n := by
  induction l generalizing n with
  | nil => simp at hp
  | cons a l ih =>
    cases n with
    | zero => simp at hp
    | succ n =>
      have h' : InOrder o l := by cases o <;> exact (List.pairwise_cons.1 h).2
      have ha : ∀ q ∈ l, within o (some a.1) q.1 = true := by
        intro q hq
        cases o <;> simp only [within, decide_eq_true_eq] <;> exact (List.pairwise_cons.1 h).1 q hq
      rw [List.take_succ_cons] at hp
      rw [List.drop_succ_cons]
      rcases hlast : (l.take n).getLast? with _ | p'
      · -- only the first was taken
        have he : l.take n = [] := List.getLast?_eq_none_iff.1 hlast
        rw [he] at hp
        simp only [List.getLast?_singleton, Option.some.injEq] at hp
        subst hp
        rw [List.filter_cons_of_neg (by cases o <;> simp [within])]
        rw [List.filter_eq_self.2 ha]
        rcases List.take_eq_nil_iff.1 he with hn | hl
        · subst hn; rfl
        · subst hl; simp
      · have hpp : p = p' := by
          rw [List.getLast?_cons, hlast] at hp
          simpa using hp.symm
        subst hpp
        have hmem : p ∈ l := List.mem_of_mem_take (List.mem_of_getLast? hlast)
        have hpa := ha p hmem
        rw [List.filter_cons_of_neg (by cases o <;> simp [within] at * <;> omega)]
        exact ih h' hlast

/-- Following any listing that takes the first `n` entries after a start. -/
theorem follow_all {m : AMap Nat V} (hm : AMap.WF m) {o : Order} {n : Nat} (hn : 0 < n) (start : Option Nat) (fuel : Nat)
    (hf : (range m start o).length < fuel) :
    (follow (fun s => (range m s o).take n) fuel start).flatten = range m start o := by
  induction fuel generalizing start with
  | zero => omega
  | succ fuel ih =>
    unfold follow
    rcases hl : ((range m start o).take n).getLast? with _ | p
    · simp only [List.flatten_nil]
      rcases List.take_eq_nil_iff.1 (List.getLast?_eq_none_iff.1 hl) with h0 | h0
      · omega
      · exact h0.symm
    · simp only [List.flatten_cons]
      have hmem : p ∈ range m start o := List.mem_of_mem_take (List.mem_of_getLast? hl)
      have hk := (mem_range.1 hmem).2
      have hrest : range m (some p.1) o = (range m start o).drop n := by
        rw [range_rest hk]; exact filter_after (range_inOrder hm start o) hl
      rw [ih (some p.1) ?_, hrest, List.take_append_drop]
      rw [hrest, List.length_drop]
      have : 0 < (range m start o).length := List.length_pos_of_mem hmem
      omega

theorem range_length {m : AMap Nat V} {start : Option Nat} {o : Order} : (range m start o).length ≤ m.length := by
  have hs : (sorted m).length = m.length := by
    induction m with
    | nil => rfl
    | cons a m ih =>
      have : ∀ l : List (Nat × V), (insert a l).length = l.length + 1 := by
        intro l
        induction l with
        | nil => rfl
        | cons b l ih => unfold insert; split <;> simp [ih]
      show (insert a (sorted m)).length = _
      rw [this, ih]; rfl
  cases o
  · exact Nat.le_trans (List.length_filter_le _ _) (Nat.le_of_eq hs)
  · refine Nat.le_trans (List.length_filter_le _ _) ?_
    rw [List.length_reverse]; exact Nat.le_of_eq hs

/-- C59: following the pages of `paginate_map` by the last key seen gives, for every positive page size and both orders,
a list in strict order of keys that holds exactly the entries of the map: every entry once. -/
theorem C59_map {m : AMap Nat V} (hm : AMap.WF m) (o : Order) (l : Nat) (hl : 0 < l) (fuel : Nat)
    (hf : m.length < fuel) :
    InOrder o (follow (fun s => paginateMap m s (some l) o) fuel none).flatten ∧
    (∀ k v, (k, v) ∈ (follow (fun s => paginateMap m s (some l) o) fuel none).flatten ↔ m.get k = some v) ∧
    ∀ page ∈ follow (fun s => paginateMap m s (some l) o) fuel none, page ≠ [] ∧ page.length ≤ l := by
  have h := follow_all hm hl none fuel (Nat.lt_of_le_of_lt (range_length (o := o)) hf)
  have e : (fun s => paginateMap m s (some l) o) = (fun s => (range m s o).take l) := rfl
  rw [e]
  refine ⟨?_, ?_, ?_⟩
  · rw [h]; exact range_inOrder hm none o
  · intro k v
    rw [h, mem_range]
    constructor
    · intro hh; exact AMap.get_of_mem hm hh.1
    · intro hh; exact ⟨AMap.mem_of_get hh, rfl⟩
  · generalize (none : Option Nat) = start
    clear h hf e
    induction fuel generalizing start with
    | zero => intro page hp; cases hp
    | succ fuel ih =>
      intro page hp
      unfold follow at hp
      rcases hlast : ((range m start o).take l).getLast? with _ | p
      · simp only [hlast] at hp; cases hp
      · simp only [hlast] at hp
        rcases List.mem_cons.1 hp with rfl | hp
        · refine ⟨?_, ?_⟩
          · intro he
            rw [he] at hlast; cases hlast
          · rw [List.length_take]; omega
        · exact ih _ page hp

/-- C59: a page of keys, or of values, is the page of entries without the values, or without the keys. -/
theorem C59_keys (m : AMap Nat V) (start limit : Option Nat) (o : Order) :
    paginateKeys m start limit o = (paginateMap m start limit o).map Prod.fst ∧
    paginateValues m start limit o = (paginateMap m start limit o).map Prod.snd := by
  unfold paginateKeys paginateValues paginateMap
  cases limit <;> simp [List.map_take]

/-- C59, without a limit: everything, in order. -/
theorem C59_unlimited {m : AMap Nat V} (hm : AMap.WF m) (o : Order) (start : Option Nat) :
    InOrder o (paginateMap m start none o) ∧
    ∀ k v, (k, v) ∈ paginateMap m start none o ↔ m.get k = some v ∧ within o start k = true := by
  refine ⟨range_inOrder hm start o, ?_⟩
  intro k v
  show (k, v) ∈ range m start o ↔ _
  rw [mem_range]
  constructor
  · intro hh; exact ⟨AMap.get_of_mem hm hh.1, hh.2⟩
  · intro hh; exact ⟨AMap.mem_of_get hh.1, hh.2⟩

/-- C59, for the listings written out in contracts: the same, for every requested positive page size. -/
theorem C59_listing {m : AMap Nat V} (hm : AMap.WF m) (o : Order) (limit : Option Nat) (default : Nat) (max : Option Nat)
    (hl : limit ≠ some 0) (hd : 0 < default) (hx : max ≠ some 0) (fuel : Nat) (hf : m.length < fuel) :
    InOrder o (follow (fun s => listing m s limit default max o) fuel none).flatten ∧
    ∀ k v, (k, v) ∈ (follow (fun s => listing m s limit default max o) fuel none).flatten ↔ m.get k = some v := by
  have hpos : 0 < (match max with | some x => min (limit.getD default) x | none => limit.getD default) := by
    have h1 : 0 < limit.getD default := by
      cases limit with
      | none => exact hd
      | some x => exact Nat.pos_of_ne_zero (fun e => hl (by subst e; rfl))
    cases max with
    | none => exact h1
    | some x =>
      have h2 : 0 < x := Nat.pos_of_ne_zero (fun e => hx (by subst e; rfl))
      simp only; omega
  obtain ⟨h1, h2, _⟩ := C59_map hm o _ hpos fuel hf
  exact ⟨h1, h2⟩

theorem insert_cons_le {a b : Nat × V} {l : List (Nat × V)} (h : a.1 ≤ b.1) : insert a (b :: l) = a :: b :: l := by
  simp [insert, h]

theorem insert_cons_gt {a b : Nat × V} {l : List (Nat × V)} (h : ¬ a.1 ≤ b.1) : insert a (b :: l) = b :: insert a l := by
  simp [insert, h]

theorem filter_insert {a : Nat × V} {l : List (Nat × V)} (q : Nat × V → Bool) (hs : l.Pairwise (fun p q => p.1 < q.1)) :
    (insert a l).filter q = if q a then insert a (l.filter q) else l.filter q := by
  induction l with
  | nil => cases h : q a <;> simp [insert, h]
  | cons b l ih =>
    have ih := ih (List.pairwise_cons.1 hs).2
    by_cases hle : a.1 ≤ b.1
    · rw [insert_cons_le hle]
      cases ha : q a
      · simp [ha]
      · rw [List.filter_cons_of_pos ha]
        simp only [if_true]
        cases hb : q b
        · rw [List.filter_cons_of_neg (by simp [hb])]
          rcases hl : l.filter q with _ | ⟨c, t⟩
          · rfl
          · have hc : c ∈ l := (List.mem_filter.1 (by rw [hl]; exact List.mem_cons_self ..)).1
            have := (List.pairwise_cons.1 hs).1 c hc
            rw [insert_cons_le (by omega)]
        · rw [List.filter_cons_of_pos hb, insert_cons_le hle]
    · rw [insert_cons_gt hle]
      cases hb : q b
      · rw [List.filter_cons_of_neg (by simp [hb]), List.filter_cons_of_neg (by simp [hb]), ih]
      · rw [List.filter_cons_of_pos hb, List.filter_cons_of_pos hb, ih]
        cases ha : q a
        · simp
        · simp only [if_true]
          rw [insert_cons_gt hle]

theorem wf_filter {m : AMap Nat V} (hm : AMap.WF m) (q : Nat × V → Bool) : AMap.WF (m.filter q) :=
  List.Nodup.sublist (List.Sublist.map _ List.filter_sublist) hm

theorem sorted_filter {m : AMap Nat V} (hm : AMap.WF m) (q : Nat × V → Bool) :
    sorted (m.filter q) = (sorted m).filter q := by
  induction m with
  | nil => rfl
  | cons a m ih =>
    have hm' : AMap.WF m := by
      unfold AMap.WF at hm ⊢
      rw [List.map_cons, List.nodup_cons] at hm
      exact hm.2
    have h2 : sorted (a :: m) = insert a (sorted m) := rfl
    rw [h2, filter_insert q (sorted_sorted hm')]
    cases ha : q a
    · rw [List.filter_cons_of_neg (by simp [ha]), ih hm']; rfl
    · rw [List.filter_cons_of_pos ha, ← ih hm']; rfl

/-- C59, for the listing that keeps only entries that qualify: following its pages shows each entry that qualifies
once, and no other. -/
theorem C59_qualifying {m : AMap Nat V} (hm : AMap.WF m) (q : V → Bool) (l : Nat) (hl : 0 < l) (fuel : Nat)
    (hf : m.length < fuel) :
    InOrder .asc (follow (fun s => qualifying m q s (some l)) fuel none).flatten ∧
    ∀ k v, (k, v) ∈ (follow (fun s => qualifying m q s (some l)) fuel none).flatten ↔ m.get k = some v ∧ q v = true := by
  have e : (fun s => qualifying m q s (some l)) =
      (fun s => paginateMap (m.filter (fun p => q p.2)) s (some l) .asc) := by
    funext s
    simp only [qualifying, paginateMap, range, Option.getD_some, sorted_filter hm, List.filter_filter]
    congr 2
    funext p
    exact Bool.and_comm _ _
  rw [e]
  have hwf := wf_filter hm (fun p => q p.2)
  obtain ⟨h1, h2, _⟩ := C59_map hwf .asc l hl fuel (Nat.lt_of_le_of_lt (List.length_filter_le _ _) hf)
  refine ⟨h1, ?_⟩
  intro k v
  rw [h2]
  constructor
  · intro h
    have := List.mem_filter.1 (AMap.mem_of_get h)
    exact ⟨AMap.get_of_mem hm this.1, this.2⟩
  · intro h
    exact AMap.get_of_mem hwf (List.mem_filter.2 ⟨AMap.mem_of_get h.1, h.2⟩)

/-- Why the page size must be positive: pages of size zero show nothing. -/
theorem C59_zero (m : AMap Nat V) (o : Order) (fuel : Nat) :
    follow (fun s => paginateMap m s (some 0) o) fuel none = [] := by
  cases fuel <;> simp [follow, paginateMap]

/-- An example: five entries, pages of two, both ways. -/
theorem C59_example :
    follow (fun s => paginateMap [(5, 0), (1, 1), (9, 2), (3, 3), (7, 4)] s (some 2) .asc) 6 none =
      [[(1, 1), (3, 3)], [(5, 0), (7, 4)], [(9, 2)]] ∧
    follow (fun s => paginateMap [(5, 0), (1, 1), (9, 2), (3, 3), (7, 4)] s (some 2) .desc) 6 none =
      [[(9, 2), (7, 4)], [(5, 0), (3, 3)], [(1, 1)]] ∧
    AMap.WF [(5, 0), (1, 1), (9, 2), (3, 3), (7, 4)] := by
  refine ⟨by decide +kernel, by decide +kernel, ?_⟩
  unfold AMap.WF; decide

end Verif.Paginate
