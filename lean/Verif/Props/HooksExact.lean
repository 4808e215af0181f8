import Mathlib.Tactic.ByContra
import Verif.Props.Hooks
/-!
# C17: what failing hook receivers do to the list, for any number of failures

The reply of the first failure removes the receiver at its position, the reply of the second one the receiver one further on
than the one that failed, and so on.
-/

namespace Verif.Spec
open Verif

/-- The positions that are removed if the receivers at `is` fail: the first one, the second one plus one, the third one plus
two, and so on. -/
def shifted : List Nat → List Nat
  | [] => []
  | i :: is => i :: (shifted is).map (· + 1)

/-- The entries of `l` whose positions, counted from `k`, are not in `ps`. -/
def without (ps : List Nat) : Nat → List Addr → List Addr
  | _, [] => []
  | k, x :: l => if k ∈ ps then without ps (k + 1) l else x :: without ps (k + 1) l

end Verif.Spec

namespace Verif.Hooks
open Verif Verif.Spec

theorem without_congr {ps qs : List Nat} {l : List Addr} : ∀ {k : Nat}, (∀ j, k ≤ j → (j ∈ ps ↔ j ∈ qs)) →
    without ps k l = without qs k l := by
  induction l with
  | nil => intro k _; rfl
  | cons x l ih =>
    intro k h
    unfold without
    rw [ih (k := k + 1) (fun j hj => h j (by omega))]
    simp only [h k (Nat.le_refl _)]

theorem without_shift {ps : List Nat} {l : List Addr} : ∀ {k : Nat}, without ps k l = without (ps.map (· + 1)) (k + 1) l := by
  induction l with
  | nil => intro k; rfl
  | cons x l ih =>
    intro k
    unfold without
    rw [ih (k := k + 1)]
    have : k + 1 ∈ ps.map (· + 1) ↔ k ∈ ps := by simp
    simp only [this]

theorem without_erase {ps : List Nat} {l : List Addr} : ∀ {k i : Nat}, k ≤ i → (∀ p ∈ ps, i < p) →
    without ps k (l.eraseIdx (i - k)) = without (i :: ps.map (· + 1)) k l := by
  induction l with
  | nil => intro k i _ _; rfl
  | cons x l ih =>
    intro k i hk hp
    by_cases he : i = k
    · subst he
      rw [Nat.sub_self, List.eraseIdx_cons_zero, without_shift]
      have e : without (i :: ps.map (· + 1)) i (x :: l) = without (i :: ps.map (· + 1)) (i + 1) l := if_pos (by simp)
      rw [e]
      refine without_congr (fun j hj => ?_)
      constructor
      · intro h; exact List.mem_cons_of_mem _ h
      · intro h
        rcases List.mem_cons.1 h with h | h
        · omega
        · exact h
    · have : i - k = (i - (k + 1)) + 1 := by omega
      rw [this, List.eraseIdx_cons_succ]
      unfold without
      rw [if_neg, if_neg]
      · rw [ih (by omega) hp]
      · intro h
        rcases List.mem_cons.1 h with h | h
        · exact he h.symm
        · obtain ⟨p, hp1, hp2⟩ := List.mem_map.1 h
          have := hp p hp1; omega
      · intro h; have := hp k h; omega

theorem shifted_gt {is : List Nat} : ∀ {i : Nat}, (∀ j ∈ is, i < j) → ∀ p ∈ shifted is, i < p := by
  induction is with
  | nil => intro i _ p hp; cases hp
  | cons a is ih =>
    intro i h p hp
    rcases List.mem_cons.1 hp with rfl | hp
    · exact h _ List.mem_cons_self
    · obtain ⟨q, hq, rfl⟩ := List.mem_map.1 hp
      have := ih (fun j hj => h j (List.mem_cons_of_mem _ hj)) q hq
      omega

/-- **C17.** Exactly what happens if the receivers at the positions `is` fail, for any number of them. The message goes through
if and only if all the shifted positions are in the list, and then the receivers at these positions are removed. -/
theorem C17_exact {is : List Nat} (hs : is.Pairwise (· < ·)) : ∀ {l l' : List Addr},
    replies (some l) is = .ok (some l') ↔ (∀ p ∈ shifted is, p < l.length) ∧ l' = without (shifted is) 0 l := by
  have hnil : ∀ {l : List Addr} {k : Nat}, without [] k l = l := by
    intro l
    induction l with
    | nil => intro k; rfl
    | cons x l ih => intro k; unfold without; rw [ih]; simp
  induction is with
  | nil =>
    intro l l'
    simp only [replies, shifted, hnil, Except.ok.injEq, Option.some.injEq, List.not_mem_nil, false_implies, implies_true, true_and]
    exact eq_comm
  | cons i is ih =>
    intro l l'
    obtain ⟨h1, h2⟩ := List.pairwise_cons.1 hs
    have hgt := shifted_gt h1
    unfold replies removeHookByIndex
    simp only [orErr, ok_bind]
    by_cases hi : i < l.length
    · simp only [List.getElem?_eq_getElem hi, pure_eq, ok_bind]
      rw [ih h2, List.length_eraseIdx, if_pos hi]
      have he : without (shifted is) 0 (l.eraseIdx i) = without (shifted (i :: is)) 0 l := without_erase (k := 0) (Nat.zero_le _) hgt
      rw [he]
      refine and_congr_left' ?_
      constructor
      · intro h p hp
        rcases List.mem_cons.1 hp with rfl | hp
        · exact hi
        · obtain ⟨q, hq, rfl⟩ := List.mem_map.1 hp
          have := h q hq; omega
      · intro h p hp
        have := h (p + 1) (List.mem_cons_of_mem _ (List.mem_map.2 ⟨p, hp, rfl⟩))
        omega
    · have hn : l[i]? = none := List.getElem?_eq_none (Nat.not_lt.1 hi)
      simp only [hn, error_bind]
      constructor
      · intro h; cases h
      · rintro ⟨h, _⟩; exact absurd (h i List.mem_cons_self) hi

theorem without_map {ps : List Nat} {l : List Addr} : ∀ {k : Nat},
    without ps k l = ((l.zipIdx k).filter (fun x => x.2 ∉ ps)).map Prod.fst := by
  induction l with
  | nil => intro k; rfl
  | cons x l ih =>
    intro k
    unfold without
    rw [List.zipIdx_cons, List.filter_cons, ih]
    by_cases h : k ∈ ps <;> simp [h]

theorem failing_sorted (l : List Addr) (fails : Addr → Bool) : (failing l fails).Pairwise (· < ·) := by
  unfold failing
  rw [List.pairwise_map]
  refine List.Pairwise.filter _ ?_
  suffices h : ∀ (l : List Addr) (k : Nat), (l.zipIdx k).Pairwise (fun a b => a.2 < b.2) from h l 0
  intro l
  induction l with
  | nil => intro k; exact List.Pairwise.nil
  | cons x l ih =>
    intro k
    rw [List.zipIdx_cons, List.pairwise_cons]
    refine ⟨?_, ih (k + 1)⟩
    rintro ⟨y, j⟩ hy
    have := (List.mem_zipIdx hy).1
    exact Nat.lt_of_succ_le this

/-- How many receivers fail. -/
theorem failing_length (l : List Addr) (fails : Addr → Bool) : (failing l fails).length = (l.filter fails).length := by
  unfold failing
  rw [List.length_map]
  suffices h : ∀ (l : List Addr) (k : Nat), ((l.zipIdx k).filter (fun p => fails p.1)).length = (l.filter fails).length from h l 0
  intro l
  induction l with
  | nil => intro k; rfl
  | cons x l ih =>
    intro k
    rw [List.zipIdx_cons, List.filter_cons, List.filter_cons]
    cases hx : fails x <;> simp [ih (k + 1)]

theorem shifted_second {is : List Nat} (hs : is.Pairwise (· < ·)) (h2 : 2 ≤ is.length) : ∃ i ∈ is, i ∉ shifted is := by
  match is with
  | [] => simp at h2
  | [_] => simp at h2
  | i :: j :: is =>
    by_contra hn
    obtain ⟨h1, h3⟩ := List.pairwise_cons.1 hs
    obtain ⟨h4, _⟩ := List.pairwise_cons.1 h3
    refine hn ⟨j, by simp, ?_⟩
    intro hm
    simp only [shifted, List.map_cons, List.mem_cons] at hm
    have := h1 j (by simp)
    rcases hm with h | h | h
    · omega
    · omega
    · obtain ⟨q, hq, he⟩ := List.mem_map.1 h
      obtain ⟨q', hq', rfl⟩ := List.mem_map.1 hq
      have := shifted_gt h4 q' hq'
      omega

/-- **C17.** The claim, that the message goes through and exactly the failing receivers are removed, holds if and only if at most
one receiver fails. -/
theorem C17_iff {l : List Addr} {fails : Addr → Bool} :
    replies (some l) (failing l fails) = .ok (some (survivors l fails)) ↔ (l.filter fails).length ≤ 1 := by
  constructor
  · intro h
    by_contra hlt
    have hs := failing_sorted l fails
    obtain ⟨i, hi, hni⟩ := shifted_second hs (by rw [failing_length]; omega)
    obtain ⟨_, he⟩ := (C17_exact hs).1 h
    obtain ⟨⟨x, j⟩, hx, rfl⟩ := List.mem_map.1 hi
    obtain ⟨hx1, hx2⟩ := List.mem_filter.1 hx
    have hin : x ∈ without (shifted (failing l fails)) 0 l := by
      rw [without_map]
      exact List.mem_map.2 ⟨(x, j), List.mem_filter.2 ⟨hx1, by simpa using hni⟩, rfl⟩
    rw [← he] at hin
    unfold survivors at hin
    have := (List.mem_filter.1 hin).2
    simp only at hx2
    rw [hx2] at this
    cases this
  · intro h
    by_cases h0 : ∀ x ∈ l, fails x = false
    · rw [C17_no_failure h0]
      unfold survivors
      rw [List.filter_eq_self.2 (fun x hx => by simp [h0 x hx])]
    · have : ∃ a ∈ l, fails a = true := by
        by_contra hne
        refine h0 (fun x hx => ?_)
        cases hf : fails x with
        | false => rfl
        | true => exact absurd ⟨x, hx, hf⟩ hne
      obtain ⟨a, ha, hf⟩ := this
      obtain ⟨l1, l2, rfl⟩ := List.append_of_mem ha
      rw [List.filter_append, List.filter_cons, hf] at h
      simp only [if_true, List.length_append, List.length_cons] at h
      have e1 : l1.filter fails = [] := List.eq_nil_of_length_eq_zero (by omega)
      have e2 : l2.filter fails = [] := List.eq_nil_of_length_eq_zero (by omega)
      rw [List.filter_eq_nil_iff] at e1 e2
      exact C17_one_failure_partial hf (fun x hx => by simpa using e1 x hx) (fun x hx => by simpa using e2 x hx)

/-- Five receivers of which the first, the second and the third fail: the first, the third and the fifth are removed. -/
example : replies (some [11, 12, 13, 14, 15]) [0, 1, 2] = .ok (some [12, 14]) ∧ shifted [0, 1, 2] = [0, 2, 4] ∧
    without [0, 2, 4] 0 [11, 12, 13, 14, 15] = [12, 14] := by decide

end Verif.Hooks
