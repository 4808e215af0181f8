import Verif.Base.Snapshot
import Verif.Base.History
/-!
# Snapshot maps over histories

A contract that writes a snapshot map only at the height of the current block answers queries about a
height below the current one for ever with the same value: the one current when that height began.
-/

namespace Verif
namespace Snap
variable {K V : Type} [DecidableEq K]

/-- `s'` results from `s` by saves and removals at height `h`. -/
inductive Writes (h : Nat) (s : Snap K V) : Snap K V → Prop where
  | refl : Writes h s s
  | save {s' : Snap K V} (k : K) (v : V) (hw : Writes h s s') : Writes h s (s'.save k v h)
  | remove {s' : Snap K V} (k : K) (hw : Writes h s s') : Writes h s (s'.remove k h)

theorem Writes.one (s : Snap K V) (k : K) (v : V) (h : Nat) : Writes h s (s.save k v h) := .save k v .refl

theorem Writes.trans {h : Nat} {s s' s'' : Snap K V} (h1 : Writes h s s') (h2 : Writes h s' s'') :
    Writes h s s'' := by
  induction h2 with
  | refl => exact h1
  | save k v _ ih => exact .save k v ih
  | remove k _ ih => exact .remove k ih

theorem Writes.of_eq {h : Nat} {s s' : Snap K V} (he : s' = s) : Writes h s s' := he ▸ .refl

theorem Writes.upTo {h g : Nat} {s s' : Snap K V} (hw : Writes h s s') (hu : s.UpTo g) (hle : g ≤ h) :
    s'.UpTo h := by
  induction hw with
  | refl => exact upTo_mono hu hle
  | save k v _ ih => exact upTo_save ih (Nat.le_refl _)
  | remove k _ ih => exact upTo_remove ih (Nat.le_refl _)

theorem Writes.atHeight {h g x : Nat} {s s' : Snap K V} (hw : Writes h s s') (hu : s.UpTo g) (hle : g ≤ h)
    (hx : x ≤ h) (k : K) : s'.atHeight k x = s.atHeight k x := by
  induction hw with
  | refl => rfl
  | save k v hw ih => rw [atHeight_save (hw.upTo hu hle) hx]; exact ih
  | remove k hw ih => rw [atHeight_remove (hw.upTo hu hle) hx]; exact ih

end Snap

namespace Sys
variable {S E C O K V : Type} [DecidableEq K] {M : Sys S E C O}

/-- The snapshot map `obs` of a contract is written only at the current height. -/
structure Snapshotted (M : Sys S E C O) (obs : S → Snap K V) : Prop where
  init : ∀ b s, M.init b s → (obs s).UpTo b.height
  step : ∀ s env call s' out, M.step s env call = .ok (s', out) →
    Snap.Writes (M.block env).height (obs s) (obs s')

variable {obs : S → Snap K V}

theorem Snapshotted.upTo (hs : Snapshotted M obs) {s : S} {b : Block} {l : List (Ev S E C O)}
    (h : M.Reach s b l) : (obs s).UpTo b.height :=
  Reach.induct (P := fun s b _ => (obs s).UpTo b.height) hs.init
    (fun s _ _ env call out s' _ ih hb hstep => (hs.step s env call s' out hstep).upTo ih hb.1) h

/-- What is read at height `h` does not change through calls at or above that height. -/
theorem Snapshotted.stable (hs : Snapshotted M obs) {s s' : S} {b b' : Block}
    {l l' : List (Ev S E C O)} (h : M.Reach s b l) (hr : M.Run s b l' s' b') {x : Nat}
    (hx : ∀ e ∈ l', x ≤ (M.block e.env).height) (k : K) :
    (obs s').atHeight k x = (obs s).atHeight k x := by
  induction hr with
  | refl => rfl
  | step hr hb hstep ih =>
    rw [← ih (fun e he => hx e (List.mem_cons_of_mem _ he))]
    exact (hs.step _ _ _ _ _ hstep).atHeight (hs.upTo (h.run hr)) hb.1 (hx _ (List.mem_cons_self ..)) k

/-- What is read at height `h` is the value current before the first call at or above that height. -/
theorem Snapshotted.current (hs : Snapshotted M obs) {s s' : S} {b b' : Block}
    {l l' : List (Ev S E C O)} (h : M.Reach s b l) (hr : M.Run s b l' s' b') {x : Nat} (hb : b.height < x)
    (hx : ∀ e ∈ l', x ≤ (M.block e.env).height) (k : K) :
    (obs s').atHeight k x = (obs s).get k := by
  rw [hs.stable h hr hx k]
  exact Snap.atHeight_future (hs.upTo h) hb k

end Sys

/-- The entries of a map sum up over any duplicate-free list that has all its non-zero keys. -/
theorem total_eq_sum {K : Type} [DecidableEq K] {m : AMap K Nat} (hm : m.WF) {L : List K} (hL : L.Nodup)
    (hc : ∀ k, k ∉ L → getD0 m k = 0) : (L.map (getD0 m)).sum = total m := by
  induction m generalizing L with
  | nil =>
    have : ∀ L : List K, (L.map (getD0 ([] : AMap K Nat))).sum = 0 := by
      intro L; induction L with
      | nil => rfl
      | cons a L ih => simp only [List.map_cons, List.sum_cons, ih]; rfl
    rw [this]; rfl
  | cons e m ih =>
    obtain ⟨k, v⟩ := e
    have hwf : AMap.WF m := by unfold AMap.WF at hm ⊢; simp at hm; exact hm.2
    have hk : ∀ q, getD0 m q = if q = k then 0 else getD0 ((k, v) :: m) q := by
      intro q
      by_cases hq : q = k
      · subst hq
        have : AMap.get m q = none := by
          cases hg : AMap.get m q with
          | none => rfl
          | some x =>
            unfold AMap.WF at hm
            simp only [List.map_cons, List.nodup_cons] at hm
            exact absurd ((AMap.mem_keys_iff m q).2 (by rw [hg]; rfl)) hm.1
        simp [getD0, this]
      · simp [getD0, AMap.get, hq, Ne.symm hq]
    have hkv : getD0 ((k, v) :: m) k = v := by simp [getD0, AMap.get]
    by_cases hin : k ∈ L
    · have hp := List.perm_cons_erase hin
      have h1 : (L.map (getD0 ((k, v) :: m))).sum = v + ((L.erase k).map (getD0 ((k, v) :: m))).sum := by
        rw [(hp.map _).sum_nat]; simp [hkv]
      have hnd : (L.erase k).Nodup := hL.erase k
      have hnk : k ∉ L.erase k := fun h => (List.Nodup.mem_erase_iff hL).1 h |>.1 rfl
      have h2 : (L.erase k).map (getD0 ((k, v) :: m)) = (L.erase k).map (getD0 m) := by
        apply List.map_congr_left
        intro q hq
        rw [hk q, if_neg (fun (h : q = k) => hnk (h ▸ hq))]
      rw [h1, h2, ih hwf hnd]
      · simp [total]
      · intro q hq
        rw [hk q]
        split
        · rfl
        · rename_i hne
          exact hc q (fun h => hq ((List.Nodup.mem_erase_iff hL).2 ⟨hne, h⟩))
    · have hv := hc k hin
      rw [hkv] at hv
      have h2 : L.map (getD0 ((k, v) :: m)) = L.map (getD0 m) := by
        apply List.map_congr_left
        intro q hq
        rw [hk q, if_neg (fun (h : q = k) => hin (h ▸ hq))]
      rw [h2, ih hwf hL]
      · simp [total, hv]
      · intro q hq
        rw [hk q]
        split
        · rfl
        · exact hc q hq

end Verif
