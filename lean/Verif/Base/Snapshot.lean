import Verif.Base.Core
import Verif.Base.Map
import Mathlib.Tactic.ByContra
/-!
# Snapshot maps

`cw_storage_plus::SnapshotMap` and `SnapshotItem` with `Strategy::EveryBlock` (external crate,
version 1.1; what is assumed of it is written here): saving a key first records the old value in the
changelog under the current height unless that height already has an entry; loading at a height takes the
oldest changelog entry at or above the height, or the current value when there is none.
-/

namespace Verif

/-- A snapshot map: the current values and the changelog. A `SnapshotItem` is one with key `Unit`. -/
structure Snap (K V : Type) where
  cur : AMap K V
  log : AMap (K × Nat) (Option V)
  deriving DecidableEq, Repr

namespace Snap
variable {K V : Type} [DecidableEq K]

/-- The empty map. -/
def empty : Snap K V := ⟨[], []⟩

/-- `SnapshotMap::may_load`. -/
def get (s : Snap K V) (k : K) : Option V := s.cur.get k

/-- `SnapshotMap::save` / `update` at height `h`. -/
def save (s : Snap K V) (k : K) (v : V) (h : Nat) : Snap K V :=
  ⟨s.cur.set k v, match s.log.get (k, h) with
    | some _ => s.log
    | none => s.log.set (k, h) (s.cur.get k)⟩

/-- `SnapshotMap::remove` at height `h`. -/
def remove (s : Snap K V) (k : K) (h : Nat) : Snap K V :=
  ⟨s.cur.erase k, match s.log.get (k, h) with
    | some _ => s.log
    | none => s.log.set (k, h) (s.cur.get k)⟩

/-- The oldest changelog entry of `k` at or above height `h`. -/
def oldest (k : K) (h : Nat) : AMap (K × Nat) (Option V) → Option (Nat × Option V)
  | [] => none
  | ((q, g), v) :: rest =>
    if q = k ∧ h ≤ g then
      match oldest k h rest with
      | some (g', v') => if g ≤ g' then some (g, v) else some (g', v')
      | none => some (g, v)
    else oldest k h rest

/-- `SnapshotMap::may_load_at_height`. -/
def atHeight (s : Snap K V) (k : K) (h : Nat) : Option V :=
  match oldest k h s.log with
  | some (_, v) => v
  | none => s.cur.get k

/-- All changelog entries are at or below height `h`. -/
def UpTo (s : Snap K V) (h : Nat) : Prop := ∀ e ∈ s.log, e.1.2 ≤ h

theorem oldest_none {k : K} {h : Nat} {l : AMap (K × Nat) (Option V)} :
    oldest k h l = none ↔ ∀ e ∈ l, e.1.1 = k → e.1.2 < h := by
  induction l with
  | nil => simp [oldest]
  | cons a l ih =>
    obtain ⟨⟨q, g⟩, v⟩ := a
    simp only [oldest]
    split
    · rename_i hc
      constructor
      · intro hh; split at hh <;> (try split at hh) <;> cases hh
      · intro hh
        have := hh ((q, g), v) (by simp) hc.1
        exact absurd this (by simpa using hc.2)
    · rename_i hc
      rw [ih]
      constructor
      · intro hh e he hk
        rcases List.mem_cons.1 he with rfl | he
        · simp only at hk ⊢; by_contra hlt; exact hc ⟨hk, by omega⟩
        · exact hh e he hk
      · intro hh e he hk; exact hh e (List.mem_cons_of_mem _ he) hk

theorem oldest_mem {k : K} {h : Nat} {l : AMap (K × Nat) (Option V)} {g : Nat} {v : Option V}
    (ho : oldest k h l = some (g, v)) : ((k, g), v) ∈ l ∧ h ≤ g := by
  induction l generalizing g v with
  | nil => simp [oldest] at ho
  | cons a l ih =>
    obtain ⟨⟨q, g'⟩, v'⟩ := a
    simp only [oldest] at ho
    split at ho
    · rename_i hc
      obtain ⟨rfl, hle⟩ := hc
      split at ho
      · rename_i g2 v2 h2
        split at ho
        · cases ho; exact ⟨by simp, hle⟩
        · cases ho
          have := ih h2
          exact ⟨List.mem_cons_of_mem _ this.1, this.2⟩
      · cases ho; exact ⟨by simp, hle⟩
    · have := ih ho
      exact ⟨List.mem_cons_of_mem _ this.1, this.2⟩

theorem oldest_set_other {k q : K} {h g : Nat} {w : Option V} {l : AMap (K × Nat) (Option V)}
    (hn : AMap.get l (q, g) = none) (hne : q ≠ k) :
    oldest k h (AMap.set l (q, g) w) = oldest k h l := by
  induction l with
  | nil => simp [AMap.set, oldest, hne]
  | cons a l ih =>
    obtain ⟨⟨q', g'⟩, v'⟩ := a
    simp only [AMap.get] at hn
    split at hn
    · cases hn
    · rename_i hc
      simp only [AMap.set, hc, if_false, oldest, ih hn]

theorem oldest_set_self {k : K} {h g : Nat} {w : Option V} {l : AMap (K × Nat) (Option V)}
    (hn : AMap.get l (k, g) = none) (hg : ∀ e ∈ l, e.1.2 ≤ g) :
    oldest k h (AMap.set l (k, g) w) =
      match oldest k h l with
      | some r => some r
      | none => if h ≤ g then some (g, w) else none := by
  induction l with
  | nil => simp [AMap.set, oldest]
  | cons a l ih =>
    obtain ⟨⟨q', g'⟩, v'⟩ := a
    simp only [AMap.get] at hn
    split at hn
    · cases hn
    · rename_i hc
      have ih := ih hn (fun e he => hg e (List.mem_cons_of_mem _ he))
      have hg' := hg ((q', g'), v') (by simp)
      simp only at hg'
      simp only [AMap.set, hc, if_false, oldest, ih]
      by_cases hq : q' = k ∧ h ≤ g'
      · simp only [hq, and_self, if_true]
        cases ho : oldest k h l with
        | some r => simp only; split <;> rfl
        | none =>
          have : h ≤ g := Nat.le_trans hq.2 hg'
          simp only [this, if_true, hg']
      · simp only [hq, if_false]

/-- Above all logged heights the current value is read. -/
theorem atHeight_future {s : Snap K V} {h g : Nat} (hu : s.UpTo g) (hlt : g < h) (k : K) :
    s.atHeight k h = s.get k := by
  have : oldest k h s.log = none := oldest_none.2 (fun e he _ => Nat.lt_of_le_of_lt (hu e he) hlt)
  simp [atHeight, this, get]

/-- Writing the changelog for key `k` at height `g` changes nothing that is read at or below `g`. -/
theorem atHeight_log {s : Snap K V} {k q : K} {h g : Nat} (hu : s.UpTo g) (hle : h ≤ g)
    (c : AMap K V) (hc : ∀ q, q ≠ k → c.get q = s.cur.get q) :
    atHeight (⟨c, match s.log.get (k, g) with
      | some _ => s.log
      | none => s.log.set (k, g) (s.cur.get k)⟩ : Snap K V) q h = s.atHeight q h := by
  unfold atHeight
  cases hl : s.log.get (k, g) with
  | some o =>
    simp only
    cases ho : oldest q h s.log with
    | some r => rfl
    | none =>
      simp only
      by_cases hq : q = k
      · subst hq
        have := oldest_none.1 ho _ (AMap.mem_of_get hl) rfl
        simp only at this; omega
      · exact hc q hq
  | none =>
    simp only
    by_cases hq : k = q
    · subst hq
      rw [oldest_set_self hl hu]
      cases ho : oldest k h s.log with
      | some r => rfl
      | none => simp only [hle, if_true]
    · rw [oldest_set_other hl hq]
      cases ho : oldest q h s.log with
      | some r => rfl
      | none => exact hc q (fun h => hq h.symm)

theorem atHeight_save {s : Snap K V} {k q : K} {v : V} {h g : Nat} (hu : s.UpTo g) (hle : h ≤ g) :
    (s.save k v g).atHeight q h = s.atHeight q h :=
  atHeight_log hu hle _ (fun _ hq => AMap.get_set_ne _ _ (fun h => hq h.symm))

theorem atHeight_remove {s : Snap K V} {k q : K} {h g : Nat} (hu : s.UpTo g) (hle : h ≤ g) :
    (s.remove k g).atHeight q h = s.atHeight q h :=
  atHeight_log hu hle _ (fun q hq => by rw [AMap.get_erase]; simp [Ne.symm hq])

theorem get_save (s : Snap K V) (k q : K) (v : V) (h : Nat) :
    (s.save k v h).get q = if k = q then some v else s.get q := AMap.get_set _ _ _ _

theorem get_remove (s : Snap K V) (k q : K) (h : Nat) :
    (s.remove k h).get q = if k = q then none else s.get q := AMap.get_erase _ _ _

theorem mem_set {K V : Type} [DecidableEq K] {m : AMap K V} {k : K} {v : V} {e : K × V} (h : e ∈ m.set k v) :
    e = (k, v) ∨ e ∈ m := by
  induction m with
  | nil => simp [AMap.set] at h; exact Or.inl h
  | cons a m ih =>
    obtain ⟨k', v'⟩ := a
    simp only [AMap.set] at h
    split at h
    · rename_i hk; subst hk
      rcases List.mem_cons.1 h with h | h
      · exact Or.inl h
      · exact Or.inr (List.mem_cons_of_mem _ h)
    · rcases List.mem_cons.1 h with h | h
      · exact Or.inr (by simp [h])
      · exact (ih h).imp (fun h => h) (List.mem_cons_of_mem _)

theorem upTo_save {s : Snap K V} {k : K} {v : V} {g g' : Nat} (hu : s.UpTo g) (hle : g ≤ g') :
    (s.save k v g').UpTo g' := by
  intro e he
  simp only [save] at he
  split at he
  · exact Nat.le_trans (hu e he) hle
  · rcases mem_set he with rfl | he
    · exact Nat.le_refl _
    · exact Nat.le_trans (hu e he) hle

theorem upTo_remove {s : Snap K V} {k : K} {g g' : Nat} (hu : s.UpTo g) (hle : g ≤ g') :
    (s.remove k g').UpTo g' := by
  intro e he
  simp only [remove] at he
  split at he
  · exact Nat.le_trans (hu e he) hle
  · rcases mem_set he with rfl | he
    · exact Nat.le_refl _
    · exact Nat.le_trans (hu e he) hle

omit [DecidableEq K] in
theorem upTo_mono {s : Snap K V} {g g' : Nat} (hu : s.UpTo g) (hle : g ≤ g') : s.UpTo g' :=
  fun e he => Nat.le_trans (hu e he) hle

omit [DecidableEq K] in
theorem upTo_empty (g : Nat) : (empty : Snap K V).UpTo g := by intro e he; simp [empty] at he

end Snap
end Verif
