import Verif.Props.PreProposeUpgrade
import Verif.Props.PreProposeExamples
/-!
# Example for C85: a pre-propose module is upgraded while a proposal with a deposit is open
-/

namespace Verif.PreProposeUpgrade.Example
open Verif Verif.Voting Verif.PrePropose Verif.Spec.PrePropose Verif.Spec.PreProposeUpgrade Verif.PreProposeUpgrade

/-- Anyone may propose; 7 has done so and paid a deposit. -/
def before : List (Env single × Call single) :=
  [(tx 0 40, .module (.replyPreProposeInstantiated 60)),
   (tx 1 100, .pre (.updatePolicy none (some [6]) none none none)),
   (tx 1 7 [(9, 5)], .propose ⟨11, [70], none, true⟩)]

/-- The state after `before`. -/
def wOld : World single :=
  match (sys single).play start ⟨0, 0⟩ before with
  | some r => r.1
  | none => start

theorem wOld_reach : ∃ b log, (sys single).Reach wOld b log := by
  cases h : (sys single).play start ⟨0, 0⟩ before with
  | none =>
    have : ((sys single).play start ⟨0, 0⟩ before).isSome = true := by decide +kernel
    rw [h] at this
    cases this
  | some r =>
    refine ⟨r.2.1, r.2.2, ⟨0, 0⟩, start, start_init, ?_⟩
    have : wOld = r.1 := by simp only [wOld, h]
    rw [this]
    exact Sys.play_run h

/-- What version 2.4.2 left. -/
def stOld : Storage (World single) :=
  { version := ⟨2, 4, 2⟩, settings := .old ⟨some ⟨.native 9, 5, .onlyPassed⟩, true⟩, rest := putBase wOld ⟨none, .anyone []⟩ }

/-- The hypotheses of C85 are met. -/
theorem stOld_holds : Holds (fun w => w.pre.config) putBase stOld wOld where
  settings := by
    refine ⟨_, rfl, ?_, ?_⟩
    · have h : wOld.pre.config.deposit = some depA := by decide +kernel
      simp only [h]
      exact .some (.native 9) rfl .onlyPassed
    · decide +kernel
  rest := ⟨_, rfl⟩

/-- The upgrade lets only members propose from now on; the open proposal passes, is executed, and 7 has the
deposit back. -/
theorem C85_example : ∃ st b log, (usys putBase (sys single)).Run stOld ⟨1, 1⟩ log st b ∧ ∃ w, st.view = some w ∧
    single.statusOf w.mod 1 = some .executed ∧ getD0 w.bal (.native 9, 7) = 20 ∧ w.queue.length = 0 ∧
    w.pre.config.policy = .specific true [] [] ∧ st.version = ⟨2, 5, 0⟩ := by
  obtain ⟨st, b, log, hr, hp⟩ := Sys.check_run (M := usys putBase (sys single)) (s := stOld) (b := ⟨1, 1⟩)
    (cs := [(tx 2 100, .fromUnderV250 (some (.specific true [] []))), (tx 4 1, .run (.module (.vote 1 .yes none))),
      (tx 5 2, .run (.module (.vote 1 .yes none))), (tx 16 3, .run (.module (.execute 1 false))),
      (tx 16 3, .run (.deliver 0))])
    (p := fun st _ _ => match st.view with
      | some w => decide (single.statusOf w.mod 1 = some .executed ∧ getD0 w.bal (.native 9, 7) = 20 ∧
          w.queue.length = 0 ∧ w.pre.config.policy = .specific true [] [] ∧ st.version = ⟨2, 5, 0⟩)
      | none => false) (by decide +kernel)
  cases hv : st.view with
  | none => rw [hv] at hp; cases hp
  | some w => rw [hv] at hp; exact ⟨st, b, log, hr, w, hv, of_decide_eq_true hp⟩

end Verif.PreProposeUpgrade.Example
