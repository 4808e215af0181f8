import Verif.Spec.Settings
import Verif.Props.Hooks
/-! # Replaying the changes of settings -/

namespace Verif.Settings
open Verif Verif.Hooks

theorem value_cons {C V : Type} {sets : C → Option V} {v0 : V} {c : C} {cs : List C} :
    value sets v0 (c :: cs) = (sets c).getD (value sets v0 cs) := by
  unfold value
  rw [List.findSome?_cons]
  cases sets c <;> rfl

theorem edit_add {h h' : HookList} {a : Addr} (hx : addHook h a = .ok h') : items h' = (Edit.add a).apply (items h) := by
  by_cases ha : a ∈ items h
  · exact absurd hx (C60_add.1 ha h')
  · rw [C60_add.2 ha] at hx
    injection hx with hx
    rw [← hx]; rfl

theorem edit_remove {h h' : HookList} {a : Addr} (hx : removeHook h a = .ok h') :
    items h' = (Edit.remove a).apply (items h) := by
  simp only [removeHook, bind_ok, orErr_ok] at hx
  obtain ⟨l, hl, l', hr, hx⟩ := hx
  obtain ⟨l1, l2, e1, e2, hn⟩ := removeFirst_spec hr
  have hx' : some l' = h' := by
    injection hx
  rw [← hx', hl]
  simp only [items, Option.getD_some, Edit.apply]
  rw [e1, e2, List.erase_append_right _ hn]
  simp

theorem edit_drop {h h' : HookList} {i : Nat} {a : Addr} (hx : removeHookByIndex h i = .ok (h', a)) :
    items h' = (Edit.drop i).apply (items h) := by
  simp only [removeHookByIndex, bind_ok, orErr_ok] at hx
  obtain ⟨l, hl, hx⟩ := hx
  cases hg : l[i]? with
  | none => rw [hg] at hx; cases hx
  | some y =>
    rw [hg] at hx
    have hx' : some (l.eraseIdx i) = h' := by
      injection hx with hx; injection hx
    rw [← hx', hl]; rfl

theorem add_iff {h : HookList} {a : Addr} : (∃ h', addHook h a = .ok h') ↔ a ∉ items h :=
  ⟨fun ⟨h', hx⟩ ha => C60_add.1 ha h' hx, fun ha => ⟨_, C60_add.2 ha⟩⟩

theorem remove_iff {h : HookList} {a : Addr} : (∃ h', removeHook h a = .ok h') ↔ a ∈ items h := by
  constructor
  · intro ⟨h', hx⟩
    by_cases ha : a ∈ items h
    · exact ha
    · exact absurd hx (C60_remove.1 ha h')
  · intro ha
    obtain ⟨l', hl, _⟩ := C60_remove.2 ha
    exact ⟨_, hl⟩

variable {S E C O : Type} {M : Sys S E C O}

/-- The receivers of a contract are those its history tells, when every step does what its call says. -/
theorem receivers_run {get : S → List Addr} {edit : C → Edit}
    (hstep : ∀ {s s' : S} {e : E} {c : C} {o : O}, M.step s e c = .ok (s', o) → get s' = (edit c).apply (get s))
    {s s' : S} {b b' : Block} {log : List (Ev S E C O)} (h0 : get s = []) (hr : M.Run s b log s' b') :
    get s' = receivers edit (log.map (·.call)) := by
  induction hr with
  | refl => exact h0
  | step _ _ hs ih => rw [hstep hs, ih]; rfl

/-- The value of a setting is the one its history tells, when every step does what its call says. -/
theorem value_run {V : Type} {get : S → V} {sets : C → Option V}
    (hstep : ∀ {s s' : S} {e : E} {c : C} {o : O}, M.step s e c = .ok (s', o) → get s' = (sets c).getD (get s))
    {s s' : S} {b b' : Block} {log : List (Ev S E C O)} (hr : M.Run s b log s' b') :
    get s' = value sets (get s) (log.map (·.call)) := by
  induction hr with
  | refl => rfl
  | step _ _ hs ih => rw [hstep hs, ih, List.map_cons, value_cons]

end Verif.Settings
