import Verif.Props.StakeTracker
import Verif.Props.Wormhole
/-!
# C37: what a slash of unbonding tokens does
-/

namespace Verif.StakeTracker
open Verif Verif.Wormhole

theorem danger_point {K : Type} [DecidableEq K] {m m' : Worm K Nat} {k : K} {t a u : Nat} (hw : AMap.WF m)
    (h : dangerouslyUpdate 0 m k t (fun x _ => sub128 x a) = .ok (m', u)) :
    a ≤ (load m k t).getD 0 ∧ u = (load m k t).getD 0 - a ∧
    (∀ q x, q ≠ k ∨ x < t → load m' q x = load m q x) ∧
    (∀ x, t ≤ x → ((∀ s, t < s → s ≤ x → AMap.get m (k, s) = none) → load m' k x = some u) ∧
      ((∃ s, t < s ∧ s ≤ x ∧ AMap.get m (k, s) ≠ none) → load m' k x = load m k x)) := by
  obtain ⟨h1, h2, h3⟩ := C36_dangerous hw h
  simp only [sub128_ok] at h1
  refine ⟨h1.1, h1.2.symm, fun q x hq => h2 q x ?_, fun x hx => ⟨h3 x hx, fun hs => h2 k x (Or.inr (Or.inr hs))⟩⟩
  rcases hq with hq | hq
  · exact Or.inl hq
  · exact Or.inr (Or.inl hq)

/-- **C37 (slashes of unbonding tokens).** A slash of `a` unbonding tokens of validator `v` at time `t` needs that many
there. It takes `a` from what is reported for the validator and in total at `t` and until the next registered change of
that report, and from nothing else: not from times before, not from times after that change (which is the finding of
C37), not from other validators. The validator is counted no longer at `t` if nothing is left with it. -/
theorem C37_unbonding_slash {s s' : State} {b b' : Block} {log : List (Ev State Block Call Unit)} {t v a : Nat} (h : sys.Reach s b log)
    (hs : step s b' (.unbondingSlash t v a) = .ok (s', ())) :
    a ≤ validatorStaked s t v ∧ a ≤ totalStaked s t ∧
    validatorStaked s' t v = validatorStaked s t v - a ∧ totalStaked s' t = totalStaked s t - a ∧
    validatorCardinality s' t = validatorCardinality s t - (if validatorStaked s' t v = 0 then 1 else 0) ∧
    (validatorStaked s' t v = 0 → 0 < validatorCardinality s t) ∧
    (∀ w x, w ≠ v ∨ x < t → validatorStaked s' x w = validatorStaked s x w) ∧
    (∀ x, x < t → totalStaked s' x = totalStaked s x ∧ validatorCardinality s' x = validatorCardinality s x) ∧
    (∀ x, t ≤ x → validatorStaked s' x v = validatorStaked s' t v ∨ validatorStaked s' x v = validatorStaked s x v) ∧
    (∀ x, t ≤ x → totalStaked s' x = totalStaked s' t ∨ totalStaked s' x = totalStaked s x) := by
  have hw := wf_reach h
  simp only [step, onUnbondingSlash, bind_ok, Except.ok.injEq, Prod.mk.injEq, and_true] at hs
  obtain ⟨s1, ⟨r, hr, r2, hr2, hc⟩, rfl⟩ := hs
  obtain ⟨m1, u1⟩ := r
  obtain ⟨m2, u2⟩ := r2
  obtain ⟨t1, t2, t3, t4⟩ := danger_point hw.t hr
  obtain ⟨v1, v2, v3, v4⟩ := danger_point hw.v hr2
  have tt : load m1 () t = some u1 := (t4 t (Nat.le_refl _)).1 (fun x h1 h2 => by omega)
  have vt : load m2 v t = some u2 := (v4 t (Nat.le_refl _)).1 (fun x h1 h2 => by omega)
  have key : s1.total = m1 ∧ s1.validators = m2 ∧
      ((u2 ≠ 0 ∧ s1.cardinality = s.cardinality) ∨
       (u2 = 0 ∧ 1 ≤ (load s.cardinality () t).getD 0 ∧
        load s1.cardinality () t = some ((load s.cardinality () t).getD 0 - 1) ∧
        ∀ x, x < t → load s1.cardinality () x = load s.cardinality () x)) := by
    unfold cardDangerIf at hc
    by_cases h0 : u2 = 0
    · simp only [h0, decide_true, if_true, bind_ok, Except.ok.injEq] at hc
      obtain ⟨⟨m3, u3⟩, hr3, rfl⟩ := hc
      obtain ⟨c1, c2, c3, c4⟩ := danger_point hw.c hr3
      refine ⟨rfl, rfl, Or.inr ⟨h0, c1, ?_, fun x hx => c3 _ _ (Or.inr hx)⟩⟩
      rw [← c2]
      exact (c4 t (Nat.le_refl _)).1 (fun x h1 h2 => by omega)
    · simp only [h0, decide_false, Bool.false_eq_true, if_false, Except.ok.injEq] at hc
      subst hc
      exact ⟨rfl, rfl, Or.inl ⟨h0, rfl⟩⟩
  obtain ⟨k1, k2, k3⟩ := key
  simp only [validatorStaked, totalStaked, validatorCardinality, k1, k2, tt, vt, Option.getD_some]
  refine ⟨v1, t1, v2, t2, ?_, ?_, fun w x hx => by rw [v3 w x hx], fun x hx => ⟨by rw [t3 _ x (Or.inr hx)], ?_⟩,
    fun x hx => ?_, fun x hx => ?_⟩
  · rcases k3 with ⟨h0, hc0⟩ | ⟨h0, _, hc0, _⟩
    · rw [hc0, if_neg h0]; rfl
    · rw [hc0, if_pos h0]; rfl
  · intro h0
    rcases k3 with ⟨h1, _⟩ | ⟨_, h1, _⟩
    · exact absurd h0 h1
    · omega
  · rcases k3 with ⟨_, hc0⟩ | ⟨_, _, _, hc0⟩
    · rw [hc0]
    · rw [hc0 x hx]
  · by_cases hn : ∀ y, t < y → y ≤ x → AMap.get s.validators (v, y) = none
    · left; rw [(v4 x hx).1 hn]; rfl
    · right
      rw [(v4 x hx).2 ?_]
      simpa only [not_forall, exists_prop] using hn
  · by_cases hn : ∀ y, t < y → y ≤ x → AMap.get s.total ((), y) = none
    · left; rw [(t4 x hx).1 hn]; rfl
    · right
      rw [(t4 x hx).2 ?_]
      simpa only [not_forall, exists_prop] using hn

/-- The slash of the finding: the validator is emptied at 2 and counted no longer; at 10 it is as before. -/
example : [0, 2, 9, 10].map (report [(at_ 0, .delegate 1 10), (at_ 0, .delegate 2 10), (at_ 0, .undelegate 1 10 10),
      (at_ 2, .unbondingSlash 2 1 10)]) =
    [some (20, 10, 10, 2), some (10, 0, 10, 1), some (10, 0, 10, 1), some (10, 0, 10, 1)] := by decide +kernel

end Verif.StakeTracker
