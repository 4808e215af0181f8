import Verif.Props.FanToken
/-!
# C79: who controls an issued token
-/

namespace Verif.FanToken
open Verif

/-- **C79.** The minter, and nobody else, can make more of a token, any amount that the largest supply leaves room for; the
minter and the authority, and nobody else, can hand their office over. The factory itself, which is minter and authority
only within its own transaction, does nothing on its own. -/
theorem C79_control {w : World} {e : Env} {t : Token} (ht : w.tokens.get e.denom = some t) :
    (∀ r n, (∃ x, step w e (.module (.mint r n)) = .ok x) ↔ e.sender ≠ w.self ∧ t.minter = e.sender ∧ n ≠ 0 ∧
      t.supply + n ≤ t.max ∧ getD0 w.bal (e.denom, r) + n < U128) ∧
    (∀ a, (∃ x, step w e (.module (.setMinter a)) = .ok x) ↔ e.sender ≠ w.self ∧ t.minter = e.sender) ∧
    (∀ a, (∃ x, step w e (.module (.setAuthority a)) = .ok x) ↔ e.sender ≠ w.self ∧ t.authority = e.sender) := by
  refine ⟨fun r n => ?_, fun a => ?_, fun a => ?_⟩
  · simp only [step, bind_ok, require_ok, decide_eq_true_eq, mint_ok, ht, Option.some.injEq, Except.ok.injEq]
    constructor
    · rintro ⟨_, _, h1, _, ⟨t', rfl, h2, h3, h4, h5, _⟩, _⟩; exact ⟨h1, h2, h3, h4, h5⟩
    · rintro ⟨h1, h2, h3, h4, h5⟩; exact ⟨_, (), h1, _, ⟨t, rfl, h2, h3, h4, h5, rfl⟩, rfl⟩
  · simp only [step, modMsg, bind_ok, require_ok, decide_eq_true_eq, orErr_ok, ht, Option.some.injEq, Except.ok.injEq]
    constructor
    · rintro ⟨_, _, h1, _, ⟨t', rfl, _, h2, _⟩, _⟩; exact ⟨h1, h2⟩
    · rintro ⟨h1, h2⟩; exact ⟨_, (), h1, _, ⟨t, rfl, (), h2, rfl⟩, rfl⟩
  · simp only [step, modMsg, bind_ok, require_ok, decide_eq_true_eq, orErr_ok, ht, Option.some.injEq, Except.ok.injEq]
    constructor
    · rintro ⟨_, _, h1, _, ⟨t', rfl, _, h2, _⟩, _⟩; exact ⟨h1, h2⟩
    · rintro ⟨h1, h2⟩; exact ⟨_, (), h1, _, ⟨t, rfl, (), h2, rfl⟩, rfl⟩

/-- **C79.** What these calls do. -/
theorem C79_control_does {w w' : World} {e : Env} {t : Token} {u : Unit} (ht : w.tokens.get e.denom = some t) :
    (∀ r n, step w e (.module (.mint r n)) = .ok (w', u) →
      w'.tokens.get e.denom = some { t with supply := t.supply + n } ∧
      ∀ d q, getD0 w'.bal (d, q) = getD0 w.bal (d, q) + if (d, q) = (e.denom, r) then n else 0) ∧
    (∀ a, step w e (.module (.setMinter a)) = .ok (w', u) →
      w'.tokens.get e.denom = some { t with minter := a } ∧ w'.bal = w.bal) ∧
    (∀ a, step w e (.module (.setAuthority a)) = .ok (w', u) →
      w'.tokens.get e.denom = some { t with authority := a } ∧ w'.bal = w.bal) := by
  refine ⟨fun r n h => ?_, fun a h => ?_, fun a h => ?_⟩
  · simp only [step, bind_ok, require_ok, decide_eq_true_eq, mint_ok, ht, Option.some.injEq, Except.ok.injEq,
      Prod.mk.injEq] at h
    obtain ⟨_, _, _, ⟨t', rfl, _, _, _, _, rfl⟩, rfl, _⟩ := h
    refine ⟨AMap.get_set_self .., fun d q => ?_⟩
    show getD0 (AMap.set _ _ _) _ = _
    rw [getD0_set]
    by_cases hk : (e.denom, r) = (d, q)
    · rw [if_pos hk, if_pos hk.symm, hk]
    · rw [if_neg hk, if_neg (Ne.symm hk)]; rfl
  · simp only [step, modMsg, bind_ok, require_ok, decide_eq_true_eq, orErr_ok, ht, Option.some.injEq, Except.ok.injEq,
      Prod.mk.injEq] at h
    obtain ⟨_, _, _, ⟨t', rfl, _, _, rfl⟩, rfl, _⟩ := h
    exact ⟨AMap.get_set_self .., rfl⟩
  · simp only [step, modMsg, bind_ok, require_ok, decide_eq_true_eq, orErr_ok, ht, Option.some.injEq, Except.ok.injEq,
      Prod.mk.injEq] at h
    obtain ⟨_, _, _, ⟨t', rfl, _, _, rfl⟩, rfl, _⟩ := h
    exact ⟨AMap.get_set_self .., rfl⟩

/-- The DAO 30 gets a token issued, makes 40 more for address 12 and hands its office to 31. -/
example : ∃ w b log, sys.Reach w b log ∧ w.tokens.get 7 = some ⟨30, 31, 1000, 60⟩ ∧ getD0 w.bal (7, 12) = 40 := by
  obtain ⟨w, b, log, hr, hp⟩ := Sys.check_run (M := sys) (s := w0) (b := ⟨0, 0⟩)
    (cs := [({ block := ⟨1, 5⟩, sender := 20, dao := some 30, denom := 7 },
      .factory { max := 1000, initial := [(10, 20)], daoBalance := none }),
      ({ block := ⟨2, 6⟩, sender := 30, denom := 7 }, .module (.mint 12 40)),
      ({ block := ⟨2, 6⟩, sender := 30, denom := 7 }, .module (.setMinter 31))])
    (p := fun w _ _ => decide (w.tokens.get 7 = some ⟨30, 31, 1000, 60⟩ ∧ getD0 w.bal (7, 12) = 40)) (by decide +kernel)
  exact ⟨w, b, log, ⟨_, _, ⟨rfl, rfl, rfl⟩, hr⟩, of_decide_eq_true hp⟩

end Verif.FanToken
