import Verif.Spec.Versions
import Verif.Model.Versions
/-!
# C132: the version a contract shows is the latest it was upgraded to
-/

namespace Verif.Versions
open Verif Verif.Spec.Versions

/-! ## Decimal numbers -/

theorem decimal_digit {n c : Nat} (h : c ∈ decimal n) : 48 ≤ c ∧ c ≤ 57 := by
  induction n using Nat.strongRecOn with
  | ind n ih =>
    rw [decimal] at h
    split at h
    · rw [List.mem_singleton] at h; omega
    · rw [List.mem_append, List.mem_singleton] at h
      rcases h with h | h
      · exact ih (n / 10) (by omega) h
      · omega

theorem decimal_ne_nil (n : Nat) : decimal n ≠ [] := by
  rw [decimal]; split <;> simp

theorem decimal_head {n : Nat} (hn : n ≠ 0) : (decimal n).head? ≠ some 48 := by
  induction n using Nat.strongRecOn with
  | ind n ih =>
    rw [decimal]
    split
    · simp; omega
    · have h := ih (n / 10) (by omega) (by omega)
      have hne := decimal_ne_nil (n / 10)
      cases hd : decimal (n / 10) with
      | nil => exact absurd hd hne
      | cons c l => rw [hd] at h; simpa using h

theorem decimal_foldl (n : Nat) :
    (decimal n).foldl (fun acc c => acc.bind fun n => if 48 ≤ c ∧ c ≤ 57 then some (10 * n + (c - 48)) else none) (some 0)
      = some n := by
  induction n using Nat.strongRecOn with
  | ind n ih =>
    rw [decimal]
    split
    · simp; omega
    · rw [List.foldl_append, ih (n / 10) (by omega)]
      simp only [List.foldl_cons, List.foldl_nil, Option.bind_some]
      rw [if_pos (by omega)]
      congr 1; omega

theorem parseNat_decimal (n : Nat) : parseNat (decimal n) = some n := by
  rw [parseNat, if_neg, decimal_foldl]
  rintro (h | ⟨h1, h2⟩)
  · exact decimal_ne_nil n h
  · by_cases hn : n = 0
    · subst hn; rw [decimal, if_pos (by decide)] at h1; simp at h1
    · exact decimal_head hn h2

theorem splitPoint_append {l r : List Nat} (h : ∀ c ∈ l, c ≠ 46) : splitPoint (l ++ 46 :: r) = some (l, r) := by
  induction l with
  | nil => simp [splitPoint]
  | cons c l ih =>
    rw [List.cons_append, splitPoint, if_neg (h c (by simp)), ih (fun c hc => h c (by simp [hc]))]
    rfl

theorem parse_written (v : Version) : parse v.written = some (v.major, v.minor, v.patch) := by
  have hd : ∀ n c, c ∈ decimal n → c ≠ 46 := fun n c hc => by have := decimal_digit hc; omega
  simp only [parse, Version.written, splitPoint_append (hd _), parseNat_decimal, Option.bind_eq_bind, Option.bind_some]

theorem written_inj {v w : Version} (h : v.written = w.written) : v = w := by
  have h1 := parse_written v
  rw [h, parse_written w] at h1
  cases v; cases w
  simp only [Option.some.injEq, Prod.mk.injEq] at h1
  obtain ⟨rfl, rfl, rfl⟩ := h1
  rfl

/-! ## Comparing strings -/

/-- The number digits stand for. -/
def val : List Nat → Nat
  | [] => 0
  | c :: l => (c - 48) * 10 ^ l.length + val l

theorem val_lt {l : List Nat} (h : ∀ c ∈ l, 48 ≤ c ∧ c ≤ 57) : val l < 10 ^ l.length := by
  induction l with
  | nil => simp [val]
  | cons c l ih =>
    have h1 := ih (fun c hc => h c (by simp [hc]))
    have h2 := h c (by simp)
    simp only [val, List.length_cons, Nat.pow_succ]
    have : (c - 48) * 10 ^ l.length ≤ 9 * 10 ^ l.length := Nat.mul_le_mul_right _ (by omega)
    omega

theorem val_append (l : List Nat) (c : Nat) : val (l ++ [c]) = 10 * val l + (c - 48) := by
  induction l with
  | nil => simp [val]
  | cons d l ih =>
    rw [List.cons_append, val, ih, val, List.length_append, List.length_singleton, Nat.pow_succ]
    rw [Nat.mul_add, Nat.mul_comm (10 ^ l.length) 10, ← Nat.mul_assoc, ← Nat.mul_assoc, Nat.mul_comm (d - 48) 10]
    omega

theorem val_decimal (n : Nat) : val (decimal n) = n := by
  induction n using Nat.strongRecOn with
  | ind n ih =>
    rw [decimal]
    split
    · simp [val]
    · rw [val_append, ih (n / 10) (by omega)]; omega

theorem strLt_append {l m x y : List Nat} (hlen : l.length = m.length) (hl : ∀ c ∈ l, 48 ≤ c ∧ c ≤ 57)
    (hm : ∀ c ∈ m, 48 ≤ c ∧ c ≤ 57) :
    strLt (l ++ x) (m ++ y) = true ↔ val l < val m ∨ (val l = val m ∧ strLt x y = true) := by
  induction l generalizing m with
  | nil => cases m with
    | nil => simp [val]
    | cons => simp at hlen
  | cons c l ih => cases m with
    | nil => simp at hlen
    | cons d m =>
      have hlen' : l.length = m.length := by simpa using hlen
      have h1 := val_lt (fun c hc => hl c (by simp [hc]) : ∀ c ∈ l, 48 ≤ c ∧ c ≤ 57)
      have h2 := val_lt (fun c hc => hm c (by simp [hc]) : ∀ c ∈ m, 48 ≤ c ∧ c ≤ 57)
      have hc := hl c (by simp)
      have hd := hm d (by simp)
      have := ih hlen' (fun c hc => hl c (by simp [hc])) (fun c hc => hm c (by simp [hc]))
      simp only [List.cons_append, strLt, Bool.or_eq_true, Bool.and_eq_true, decide_eq_true_eq, this, val, hlen']
      rw [hlen'] at h1
      rcases Nat.lt_trichotomy c d with hcd | rfl | hcd
      · have : (c - 48) * 10 ^ m.length + 10 ^ m.length ≤ (d - 48) * 10 ^ m.length := by
          rw [← Nat.succ_mul]; exact Nat.mul_le_mul_right _ (by omega)
        exact ⟨fun _ => .inl (by omega), fun _ => .inl hcd⟩
      · constructor
        · rintro (h | ⟨_, h | ⟨h, h'⟩⟩)
          · omega
          · exact .inl (by omega)
          · exact .inr ⟨by omega, h'⟩
        · rintro (h | ⟨h, h'⟩)
          · exact .inr ⟨rfl, .inl (by omega)⟩
          · exact .inr ⟨rfl, .inr ⟨by omega, h'⟩⟩
      · have : (d - 48) * 10 ^ m.length + 10 ^ m.length ≤ (c - 48) * 10 ^ m.length := by
          rw [← Nat.succ_mul]; exact Nat.mul_le_mul_right _ (by omega)
        constructor
        · rintro (h | ⟨h, _⟩) <;> omega
        · rintro (h | ⟨h, _⟩) <;> omega

theorem strLt_written {v w : Version} (h : v.Alike w) : strLt v.written w.written = true ↔ v.before w := by
  have hd : ∀ n, ∀ c ∈ decimal n, 48 ≤ c ∧ c ≤ 57 := fun n c hc => decimal_digit hc
  have point : ∀ x y, strLt (46 :: x) (46 :: y) = strLt x y := fun x y => by simp [strLt]
  obtain ⟨h1, h2, h3⟩ := h
  have hp := strLt_append (x := []) (y := []) h3 (hd _) (hd _)
  simp only [List.append_nil, val_decimal, strLt, Bool.false_eq_true, and_false, or_false] at hp
  simp only [Version.written, Version.before]
  rw [strLt_append h1 (hd _) (hd _), point, strLt_append h2 (hd _) (hd _), point, hp]
  simp only [val_decimal]

/-! ## Upgrades -/

variable {D : Type}

/-- **C132.** Upgrading a rewards distributor goes through exactly if the new code is that of a rewards distributor and
its version came after the one the contract shows; it then shows the new version, and nothing else has changed. -/
theorem C132_forward_iff {n m : Nat} {v w : Version} {d : D} {r : Info × D} :
    migrateForward ⟨m, w.written⟩ (⟨n, v.written⟩, d) = .ok r ↔ n = m ∧ v.before w ∧ r = (⟨m, w.written⟩, d) := by
  simp only [migrateForward, bind_ok, require_ok, orErr_ok, parse_written, Option.some.injEq, decide_eq_true_eq,
    Except.ok.injEq]
  have hl : laterThan (w.major, w.minor, w.patch) (v.major, v.minor, v.patch) = true ↔ v.before w := by
    simp [laterThan, Version.before]
  constructor
  · rintro ⟨_, h1, _, rfl, _, rfl, _, h2, rfl⟩
    exact ⟨h1, hl.1 h2, rfl⟩
  · rintro ⟨h1, h2, rfl⟩
    exact ⟨(), h1, _, rfl, _, rfl, (), hl.2 h2, rfl⟩

/-- **C132.** Whatever codes a rewards distributor is upgraded to, one after the other, in whatever order: it shows the
latest of the versions of code of its own kind, it is what it was, and its records are as they were. -/
theorem C132_forward (n : Nat) (v : Version) (d : D) (codes : List (Nat × Version)) :
    upgrades migrateForward (⟨n, v.written⟩, d) (codes.map fun c => ⟨c.1, c.2.written⟩) =
      (⟨n, (latest v ((codes.filter fun c => decide (c.1 = n)).map Prod.snd)).written⟩, d) := by
  induction codes generalizing v with
  | nil => rfl
  | cons c rest ih =>
    rw [List.map_cons, upgrades]
    by_cases hn : c.1 = n
    · rw [List.filter_cons_of_pos (by simpa using hn), List.map_cons, latest]
      by_cases hb : v.before c.2
      · rw [(C132_forward_iff (r := (⟨c.1, c.2.written⟩, d))).2 ⟨hn.symm, hb, rfl⟩, if_pos hb]
        simp only [hn]
        exact ih c.2
      · rw [if_neg hb]
        cases hx : migrateForward (⟨c.1, c.2.written⟩ : Info) (⟨n, v.written⟩, d) with
        | error e => exact ih v
        | ok r => exact absurd (C132_forward_iff.1 hx).2.1 hb
    · rw [List.filter_cons_of_neg (by simpa using hn)]
      cases hx : migrateForward (⟨c.1, c.2.written⟩ : Info) (⟨n, v.written⟩, d) with
      | error e => exact ih v
      | ok r => exact absurd (C132_forward_iff.1 hx).1.symm hn

/-- **C132 (partial).** The same for the voting modules and the token issuer, as long as all versions are written with
the same numbers of digits. Missing is that versions with more digits count: see `C132_tenth_witness`. -/
theorem C132_older_partial (n : Nat) (v : Version) (d : D) (ws : List Version)
    (halike : ∀ x ∈ v :: ws, ∀ y ∈ v :: ws, x.Alike y) :
    upgrades migrateIfOlder (⟨n, v.written⟩, d) (ws.map fun w => ⟨n, w.written⟩) =
      (⟨n, (latest v ws).written⟩, d) := by
  induction ws generalizing v with
  | nil => rfl
  | cons w rest ih =>
    rw [List.map_cons, upgrades, latest]
    have hs := strLt_written (halike v (by simp) w (by simp))
    by_cases hb : v.before w
    · rw [migrateIfOlder, if_pos (hs.2 hb), if_pos hb]
      exact ih w (fun x hx y hy => halike x (List.mem_cons_of_mem _ hx) y (List.mem_cons_of_mem _ hy))
    · rw [migrateIfOlder, if_neg (fun h => hb (hs.1 h)), if_neg hb]
      refine ih v (fun x hx y hy => halike x ?_ y ?_)
      · rcases List.mem_cons.1 hx with rfl | hx <;> simp [*]
      · rcases List.mem_cons.1 hy with rfl | hy <;> simp [*]

/-- **C132.** The upgrades of the voting modules, of the token issuer and of the other contracts never fail, and whatever
the versions are they leave alone what is recorded. -/
theorem C132_kept (s : Info × D) (cs : List Info) :
    (upgrades migrateIfOlder s cs).2 = s.2 ∧ (upgrades migrateAlways s cs).2 = s.2 ∧
      ∀ c, (∃ r, migrateIfOlder c s = .ok r) ∧ ∃ r, migrateAlways c s = .ok r := by
  refine ⟨?_, ?_, fun c => ⟨?_, ⟨_, rfl⟩⟩⟩
  · induction cs generalizing s with
    | nil => rfl
    | cons c rest ih =>
      by_cases h : strLt s.1.version c.version = true
      · simp only [upgrades, migrateIfOlder, if_pos h]; exact ih _
      · simp only [upgrades, migrateIfOlder, if_neg h]; exact ih _
  · induction cs generalizing s with
    | nil => rfl
    | cons c rest ih => exact ih _
  · rw [migrateIfOlder]; split <;> exact ⟨_, rfl⟩

/-- **C132.** The token swap, the admin factory, the BitSong token factory and the multiple choice module show the version
of the code they run, whichever it is. -/
theorem C132_always (s : Info × D) (cs : List Info) :
    upgrades migrateAlways s cs = (cs.getLast?.getD s.1, s.2) := by
  induction cs generalizing s with
  | nil => rfl
  | cons c rest ih =>
    show upgrades migrateAlways (c, s.2) rest = _
    rw [ih]
    cases rest with
    | nil => rfl
    | cons x xs =>
      rw [List.getLast?_cons_cons]
      cases h : (x :: xs).getLast? with
      | none => simp at h
      | some y => rfl

theorem written_290 : (⟨2, 9, 0⟩ : Version).written = [50, 46, 57, 46, 48] := by
  simp [Version.written, decimal]

theorem written_2100 : (⟨2, 10, 0⟩ : Version).written = [50, 46, 49, 48, 46, 48] := by
  simp [Version.written, decimal]

/-- **C132**, why it is only partial: a voting module of version 2.9.0 that is upgraded to 2.10.0 goes on showing 2.9.0,
because versions are compared as strings; and one of version 2.10.0 put back to 2.9.0 shows 2.9.0. -/
theorem C132_tenth_witness (n : Nat) (d : D) :
    (⟨2, 9, 0⟩ : Version).before ⟨2, 10, 0⟩ ∧
    upgrades migrateIfOlder (⟨n, (⟨2, 9, 0⟩ : Version).written⟩, d) [⟨n, (⟨2, 10, 0⟩ : Version).written⟩] =
      (⟨n, (⟨2, 9, 0⟩ : Version).written⟩, d) ∧
    upgrades migrateIfOlder (⟨n, (⟨2, 10, 0⟩ : Version).written⟩, d) [⟨n, (⟨2, 9, 0⟩ : Version).written⟩] =
      (⟨n, (⟨2, 9, 0⟩ : Version).written⟩, d) := by
  rw [written_290, written_2100]
  exact ⟨by decide, rfl, rfl⟩

theorem alike_small {v w : Version} (hv : v.major < 10 ∧ v.minor < 10 ∧ v.patch < 10)
    (hw : w.major < 10 ∧ w.minor < 10 ∧ w.patch < 10) : v.Alike w := by
  have h : ∀ n, n < 10 → (decimal n).length = 1 := fun n hn => by rw [decimal, if_pos hn]; rfl
  exact ⟨by rw [h _ hv.1, h _ hw.1], by rw [h _ hv.2.1, h _ hw.2.1], by rw [h _ hv.2.2, h _ hw.2.2]⟩

/-- C132: a case. A rewards distributor of version 2.9.0 is upgraded to 2.10.0, then put to 2.9.0, to another contract and
to 2.10.0 again, which all fail, then to 3.0.0. A voting module of version 2.5.0 goes to 2.7.1, is put back to 2.6.0 and
goes on showing 2.7.1. -/
theorem C132_example (d : D) :
    upgrades migrateForward (⟨1, (⟨2, 9, 0⟩ : Version).written⟩, d)
      ([(1, ⟨2, 10, 0⟩), (1, ⟨2, 9, 0⟩), (7, ⟨9, 9, 9⟩), (1, ⟨2, 10, 0⟩), (1, ⟨3, 0, 0⟩)].map
        fun c : Nat × Version => ⟨c.1, c.2.written⟩) = (⟨1, (⟨3, 0, 0⟩ : Version).written⟩, d) ∧
    upgrades migrateIfOlder (⟨4, (⟨2, 5, 0⟩ : Version).written⟩, d)
      ([⟨2, 7, 1⟩, ⟨2, 6, 0⟩].map fun w : Version => ⟨4, w.written⟩) = (⟨4, (⟨2, 7, 1⟩ : Version).written⟩, d) := by
  constructor
  · rw [C132_forward]; rfl
  · rw [C132_older_partial]
    · rfl
    · intro x hx y hy
      simp only [List.mem_cons, List.not_mem_nil, or_false] at hx hy
      rcases hx with rfl | rfl | rfl <;> rcases hy with rfl | rfl | rfl <;>
        exact alike_small ⟨by decide, by decide, by decide⟩ ⟨by decide, by decide, by decide⟩

end Verif.Versions
