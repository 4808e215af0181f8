import Verif.Props.SettingsCan
import Verif.Props.PreProposeExamples
/-!
# A history to which C100_policy and C100_can of the pre-propose modules apply
-/

namespace Verif.PrePropose
open Verif Verif.Voting Verif.Settings Verif.Spec.PrePropose

/-- The DAO (address 100) bans 5 and pardons 6, then turns to a policy with an allowlist, then changes that. -/
def policyCalls : List (Env single × Call single) :=
  [(tx 1 100, .pre (.updatePolicy (some [5]) (some [6]) none none none)),
   (tx 2 100, .pre (.updateConfig none (some (.specific false [7] [5])))),
   (tx 3 100, .pre (.updatePolicy none (some [5]) (some true) (some [5, 8]) (some [7]))),
   (tx 4 100, .pre (.addHook 77))]

/-- All of it is accepted; 6 was banned at the start and is not any more, 5 is allowed, 7 is not, members may. -/
theorem C100_policy_example : ∃ w b log, (sys single).Reach w b log ∧ log.length = 4 ∧
    membersMay w.pre.config.policy = some true ∧ 6 ∈ denied start.pre.config.policy ∧
    (∀ x, x ∈ denied w.pre.config.policy ↔ x ∈ ([] : List Addr)) ∧
    5 ∈ allowed w.pre.config.policy ∧ 7 ∉ allowed w.pre.config.policy ∧ w.pre.hooks.getD [] = [77] ∧
    value (ofCall (msgDenied 6)) true (log.map (·.call)) = false ∧
    value (ofCall (msgAllowed 5)) false (log.map (·.call)) = true ∧
    value (ofCall msgMembers) none (log.map (·.call)) = some true ∧
    -- and then the DAO could not ban 5, which is allowed, but can ban 9
    (∀ r, (sys single).step w (tx 5 100) (.pre (.updatePolicy (some [5]) none none none none)) ≠ .ok r) ∧
    ∃ r, (sys single).step w (tx 5 100) (.pre (.updatePolicy (some [9]) none none none none)) = .ok r := by
  obtain ⟨w, b, log, hr, hp⟩ := Sys.check_run (M := sys single) (s := start) (b := ⟨0, 0⟩) (cs := policyCalls)
    (p := fun w b log => decide (log.length = 4 ∧ w.pre.config.policy = .specific true [5, 8] [] ∧
      w.pre.hooks.getD [] = [77] ∧ w.here = 60 ∧ w.pre.dao = 100 ∧
      value (ofCall (msgDenied 6)) true (log.map (·.call)) = false ∧
      value (ofCall (msgAllowed 5)) false (log.map (·.call)) = true ∧
      value (ofCall msgMembers) none (log.map (·.call)) = some true)) (by decide +kernel)
  obtain ⟨h1, h2, h3, h4, h5, h6, h7, h8⟩ := of_decide_eq_true hp
  have can := C100_can (M := single) (w := w) (e := tx 5 100) rfl (by rw [h4]; decide)
  refine ⟨w, b, log, ⟨_, _, start_init, hr⟩, h1, by rw [h2]; rfl, by decide, by rw [h2]; exact fun _ => Iff.rfl,
    by rw [h2]; decide, by rw [h2]; decide, h3, h6, h7, h8, fun r hr => ?_, ?_⟩
  · obtain ⟨_, hc⟩ := (can.2.1 _ _ _ _ _).1 ⟨r, hr⟩
    rw [h2] at hc
    exact hc.1 5 ⟨.inl (by decide), by decide⟩ ⟨.inr (by decide), by decide⟩
  · refine (can.2.1 _ _ _ _ _).2 ⟨by rw [h5]; rfl, ?_⟩
    rw [h2]
    refine ⟨fun x hx hd => ?_, .inl rfl⟩
    obtain ⟨hx | hx, _⟩ := hx
    · obtain ⟨hd | hd, _⟩ := hd
      · cases hd
      · simp only [Option.getD_some, List.mem_singleton] at hd
        subst hd; revert hx; decide
    · cases hx

end Verif.PrePropose
