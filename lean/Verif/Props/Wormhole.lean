import Verif.Proofs.Wormhole
import Mathlib.Tactic.ByContra
/-!
# C36: reading a key at a time applies exactly the changes scheduled at or before it
-/

namespace Verif.Wormhole

open Verif.Spec.Wormhole

variable {K V : Type} [DecidableEq K]

/-- Make all the updates of a list (newest first) on an empty storage. -/
def runAll (dflt : V) : List (Upd K V) → Res (Worm K V)
  | [] => .ok []
  | u :: us => do
    let m ← runAll dflt us
    let r ← update dflt m u.key u.time (pureF u.change) ()
    .ok r.1

/-- The storage after a history: which snapshots there are, and when the value in force at `x` was set. -/
theorem runAll_inv {dflt : V} : ∀ {us : List (Upd K V)} {m : Worm K V}, runAll dflt us = .ok m →
    AMap.WF m ∧ (∀ q s, AMap.get m (q, s) ≠ none ↔ ∃ u ∈ us, u.key = q ∧ u.time = s) ∧
    (∀ q x s v, latest q x m = some (s, v) → lastTime q x us = s) ∧
    (∀ q x, latest q x m = none → lastTime q x us = 0 ∧ ∀ u ∈ us, u.key = q → x < u.time)
  | [], m, h => by
    simp only [runAll, Except.ok.injEq] at h
    subst h
    refine ⟨AMap.WF_nil, ?_, ?_, ?_⟩
    · intro q s; simp [AMap.get]
    · intro q x s v h; simp [latest] at h
    · intro q x _; exact ⟨rfl, fun _ h => (by cases h)⟩
  | u :: us, m', h => by
    unfold runAll at h
    obtain ⟨m, hm, h⟩ := (bind_ok _ _ _).mp h
    obtain ⟨⟨m2, w, un⟩, hr, h⟩ := (bind_ok _ _ _).mp h
    simp only [Except.ok.injEq] at h
    subst h
    obtain ⟨i1, i2, i3, i4⟩ := runAll_inv hm
    obtain ⟨e1, e2, e3, e4, e5, e6⟩ := update_effect i1 hr
    have hd : ∀ q s, AMap.get m2 (q, s) ≠ none ↔ ∃ u' ∈ u :: us, u'.key = q ∧ u'.time = s := by
      intro q s
      rw [e6, i2]
      constructor
      · rintro (⟨u', h1, h2⟩ | ⟨rfl, rfl⟩)
        · exact ⟨u', List.mem_cons_of_mem _ h1, h2⟩
        · exact ⟨u, List.mem_cons_self, rfl, rfl⟩
      · rintro ⟨u', h1, h2, h3⟩
        rcases List.mem_cons.mp h1 with rfl | h1
        · exact Or.inr ⟨h2.symm, h3.symm⟩
        · exact Or.inl ⟨u', h1, h2, h3⟩
    have hlt : ∀ q x, lastTime q x us = match latest q x m with | some (s, _) => s | none => 0 := by
      intro q x
      cases hl : latest q x m with
      | none => exact (i4 q x hl).1
      | some p => exact i3 q x p.1 p.2 hl
    refine ⟨e1, hd, ?_, ?_⟩
    · intro q x s v hl
      obtain ⟨a, b, c⟩ := (latest_some e1).mp hl
      unfold lastTime
      rw [hlt]
      cases hm0 : latest q x m with
      | none =>
        have hn := (latest_none i1).mp hm0
        rcases (e6 q s).mp (by rw [a]; simp) with h | ⟨h1, h2⟩
        · exact absurd (hn s b) h
        · subst h1 h2
          rw [if_pos ⟨rfl, b⟩]
          simp
      | some p =>
        obtain ⟨s0, v0⟩ := p
        obtain ⟨a0, b0, c0⟩ := (latest_some i1).mp hm0
        simp only
        have hs0 := c s0 b0 ((e6 q s0).mpr (Or.inl (by rw [a0]; simp)))
        split
        · rename_i hc
          have h1 := c u.time hc.2 ((e6 q u.time).mpr (Or.inr ⟨hc.1.symm, rfl⟩))
          rcases (e6 q s).mp (by rw [a]; simp) with h | ⟨_, h⟩
          · have := c0 s b h; omega
          · omega
        · rename_i hc
          rcases (e6 q s).mp (by rw [a]; simp) with h | ⟨h1, h2⟩
          · have := c0 s b h; omega
          · exact absurd ⟨h1.symm, by omega⟩ hc
    · intro q x hl
      have hn := (latest_none e1).mp hl
      have hm0 : latest q x m = none := by
        rw [latest_none i1]
        intro s hs
        by_contra hne
        exact absurd (hn s hs) ((e6 q s).mpr (Or.inl hne))
      have hu : ¬ (u.key = q ∧ u.time ≤ x) := by
        rintro ⟨h1, h2⟩
        exact absurd (hn u.time h2) ((e6 q u.time).mpr (Or.inr ⟨h1.symm, rfl⟩))
      refine ⟨?_, ?_⟩
      · unfold lastTime
        rw [if_neg hu]
        exact (i4 q x hm0).1
      · intro u' hu' hk
        rcases List.mem_cons.mp hu' with rfl | h
        · by_contra hlt'
          exact hu ⟨hk, by omega⟩
        · exact (i4 q x hm0).2 u' h hk

/-- The moment passed to the change is the one of the specification. -/
theorem since_lastTime {dflt : V} {us : List (Upd K V)} {m : Worm K V} (h : runAll dflt us = .ok m) (u : Upd K V)
    {x : Nat} (hx : u.time ≤ x) : since m u.key u.time x = lastTime u.key x (u :: us) := by
  obtain ⟨_, _, i3, i4⟩ := runAll_inv h
  unfold since lastTime
  rw [if_pos ⟨rfl, hx⟩]
  cases hl : latest u.key x m with
  | none => simp [(i4 _ _ hl).1]
  | some p => rw [i3 _ _ p.1 p.2 hl, Nat.max_comm]

/-- C36. After any sequence of updates at any times and in any order, reading any key at any time returns what
results from applying, in the order they were made, exactly the updates of that key whose time is at or before
the time of reading. -/
theorem C36_fold {dflt : V} {us : List (Upd K V)} {m : Worm K V} (h : runAll dflt us = .ok m) (k : K) (x : Nat) :
    value dflt k x us = .ok (load m k x) := by
  induction us generalizing m with
  | nil =>
    simp only [runAll, Except.ok.injEq] at h
    subst h
    rfl
  | cons u us ih =>
    have hall := h
    unfold runAll at h
    obtain ⟨m0, hm, h⟩ := (bind_ok _ _ _).mp h
    obtain ⟨⟨m2, w, un⟩, hr, h⟩ := (bind_ok _ _ _).mp h
    simp only [Except.ok.injEq] at h
    subst h
    obtain ⟨e1, e2, e3, e4, e5, e6⟩ := update_effect (runAll_inv hm).1 hr
    unfold value
    rw [ih hm, ok_bind]
    split
    · rename_i hc
      obtain ⟨rfl, hx⟩ := hc
      obtain ⟨w', h1, h2⟩ := e4 x hx
      rw [since_lastTime hm u hx] at h1
      rw [h1, ok_bind, h2]
    · rename_i hc
      congr 1
      by_cases hk : k = u.key
      · subst hk
        exact (e3 x (by
          by_contra hx
          exact hc ⟨rfl, by omega⟩)).symm
      · exact (e2 k hk x).symm

/-- C36. The updates succeed exactly when every change succeeds wherever it has to be applied: nothing else
makes an update fail. -/
theorem C36_live {dflt : V} (us : List (Upd K V)) :
    (∃ m, runAll dflt us = .ok m) ↔ ∀ k x, ∃ r, value dflt k x us = .ok r := by
  constructor
  · rintro ⟨m, h⟩ k x
    exact ⟨_, C36_fold h k x⟩
  · intro h
    induction us with
    | nil => exact ⟨[], rfl⟩
    | cons u us ih =>
      obtain ⟨m, hm⟩ := ih (by
        intro k x
        obtain ⟨r, hr⟩ := h k x
        unfold value at hr
        obtain ⟨v, hv, _⟩ := (bind_ok _ _ _).mp hr
        exact ⟨v, hv⟩)
      obtain ⟨m', u', hu⟩ := update_live (dflt := dflt) (f := u.change) (k := u.key) (t := u.time)
        (runAll_inv hm).1 (by
          intro x hx
          obtain ⟨r, hr⟩ := h u.key x
          unfold value at hr
          rw [C36_fold hm, ok_bind, if_pos ⟨rfl, hx⟩] at hr
          obtain ⟨w, hw, _⟩ := (bind_ok _ _ _).mp hr
          rw [since_lastTime hm u hx]
          exact ⟨w, hw⟩)
      refine ⟨m', ?_⟩
      unfold runAll
      simp only [hm, hu, ok_bind]

/-- C36. A key has no value exactly at the times before its first update. -/
theorem C36_none {dflt : V} {us : List (Upd K V)} {m : Worm K V} (h : runAll dflt us = .ok m) (k : K) (x : Nat) :
    load m k x = none ↔ ∀ u ∈ us, u.key = k → x < u.time := by
  obtain ⟨i1, i2, _, i4⟩ := runAll_inv h
  unfold load
  rw [Option.map_eq_none_iff]
  constructor
  · exact fun hl => (i4 k x hl).2
  · intro hall
    rw [latest_none i1]
    intro s hs
    by_contra hne
    obtain ⟨u, h1, h2, h3⟩ := (i2 k s).mp hne
    have := hall u h1 h2
    omega

/-- The amounts added and removed up to time `x`, for changes that add or subtract. -/
def net (k : K) (x : Nat) : List (K × Nat × Int) → Int
  | [] => 0
  | (q, t, d) :: rest => (if q = k ∧ t ≤ x then d else 0) + net k x rest

/-- The change made by `increment` (positive amounts) and `decrement` (negative amounts). -/
def signed (d : Int) (v : Nat) : Res Nat :=
  if 0 ≤ d then add128 v d.toNat else sub128 v (-d).toNat

/-- C36. For a history of increments and decrements, made in any order, the value read at `x` is the sum of the
amounts whose time is at or before `x`. -/
theorem C36_sum {us : List (K × Nat × Int)} {m : Worm K Nat}
    (h : runAll 0 (us.map fun u => ⟨u.1, u.2.1, fun v _ => signed u.2.2 v⟩) = .ok m) (k : K) (x : Nat) :
    (((load m k x).getD 0 : Nat) : Int) = net k x us := by
  have hf := C36_fold h k x
  clear h
  generalize load m k x = r at hf
  induction us generalizing r with
  | nil =>
    simp only [List.map_nil, value, Except.ok.injEq] at hf
    subst hf
    rfl
  | cons u us ih =>
    obtain ⟨q, t, d⟩ := u
    simp only [List.map_cons] at hf
    unfold value at hf
    obtain ⟨v, hv, hf⟩ := (bind_ok _ _ _).mp hf
    have i := ih v hv
    unfold net
    split at hf
    · rename_i hc
      rw [if_pos hc]
      obtain ⟨w, hw, hf⟩ := (bind_ok _ _ _).mp hf
      simp only [Except.ok.injEq] at hf
      subst hf
      simp only [Option.getD_some]
      unfold signed at hw
      split at hw
      · obtain ⟨_, rfl⟩ := (add128_ok _ _ _).mp hw
        omega
      · obtain ⟨_, rfl⟩ := (sub128_ok _ _ _).mp hw
        omega
    · rename_i hc
      rw [if_neg hc]
      simp only [Except.ok.injEq] at hf
      subst hf
      omega

/-- C36. `dangerously_update` changes the value only from its time up to the next time the key already had a
change. -/
theorem C36_dangerous {dflt : V} {m m' : Worm K V} {k : K} {t : Nat} {f : V → Nat → Res V} {u : V}
    (hw : AMap.WF m) (h : dangerouslyUpdate dflt m k t f = .ok (m', u)) :
    f ((load m k t).getD dflt) t = .ok u ∧
    (∀ q x, q ≠ k ∨ x < t ∨ (∃ s, t < s ∧ s ≤ x ∧ AMap.get m (k, s) ≠ none) → load m' q x = load m q x) ∧
    (∀ x, t ≤ x → (∀ s, t < s → s ≤ x → AMap.get m (k, s) = none) → load m' k x = some u) := by
  unfold dangerouslyUpdate at h
  obtain ⟨u', hu, h⟩ := (bind_ok _ _ _).mp h
  simp only [Except.ok.injEq, Prod.mk.injEq] at h
  obtain ⟨rfl, rfl⟩ := h
  have hw1 : AMap.WF (AMap.set m (k, t) u') := AMap.WF_set hw _ _
  refine ⟨hu, ?_, ?_⟩
  · intro q x hc
    unfold load
    congr 1
    cases hl : latest q x m with
    | none =>
      rw [latest_none hw1]
      have hn := (latest_none hw).mp hl
      intro s hs
      rw [AMap.get_set_ne]
      · exact hn s hs
      · intro e
        simp only [Prod.mk.injEq] at e
        obtain ⟨rfl, rfl⟩ := e
        rcases hc with h | h | ⟨s, h1, h2, h3⟩
        · exact h rfl
        · omega
        · exact h3 (hn s h2)
    | some p =>
      obtain ⟨s, v⟩ := p
      obtain ⟨a, b, c⟩ := (latest_some hw).mp hl
      rw [latest_some hw1]
      have hne : (k, t) ≠ (q, s) := by
        intro e
        simp only [Prod.mk.injEq] at e
        obtain ⟨rfl, rfl⟩ := e
        rcases hc with h | h | ⟨s', h1, h2, h3⟩
        · exact h rfl
        · omega
        · have := c s' h2 h3; omega
      refine ⟨by rw [AMap.get_set_ne _ _ hne]; exact a, b, ?_⟩
      intro s' hs' hg
      by_cases he : (k, t) = (q, s')
      · simp only [Prod.mk.injEq] at he
        obtain ⟨rfl, rfl⟩ := he
        rcases hc with h | h | ⟨s2, h1, h2, h3⟩
        · exact absurd rfl h
        · omega
        · have := c s2 h2 h3; omega
      · rw [AMap.get_set_ne _ _ he] at hg
        exact c s' hs' hg
  · intro x hx hn
    have : latest k x (AMap.set m (k, t) u') = some (t, u') := by
      rw [latest_some hw1]
      refine ⟨AMap.get_set_self _ _ _, hx, ?_⟩
      intro s' hs' hg
      by_contra hlt
      rw [AMap.get_set_ne _ _ (by intro e; simp only [Prod.mk.injEq, true_and] at e; omega)] at hg
      exact hg (hn s' (by omega) hs')
    unfold load
    rw [this]
    rfl

/-- A concrete history, made out of order: 10 is added at time 0, 4 removed at time 20, then 5 added at time 7,
another key changed, and 3 removed at time 12. -/
def exampleUpdates : List (Nat × Nat × Int) := [(0, 12, -3), (1, 3, 100), (0, 7, 5), (0, 20, -4), (0, 0, 10)]

theorem C36_example :
    (match runAll 0 (exampleUpdates.map fun u => ⟨u.1, u.2.1, fun v _ => signed u.2.2 v⟩) with
     | .ok m => decide ([0, 6, 7, 12, 19, 20].map (fun x => (load m 0 x).getD 0) = [10, 10, 15, 12, 12, 8]
        ∧ load m 1 2 = none ∧ load m 1 3 = some 100)
     | .error _ => false) = true := by decide +kernel

end Verif.Wormhole
