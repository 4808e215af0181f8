import Verif.Spec.Owners
/-!
# Contracts with an owner

What all contracts that use `cw_ownable` have in common.
-/

namespace Verif.Owners
open Verif Verif.Spec.Owners

variable {S E C O : Type}

/-- A transaction leaves the ownership alone, unless it is a call of `UpdateOwnership`. -/
structure Owned (M : Sys S E C O) (own : S → Ownership) (tells : E → C → Option Said) : Prop where
  keeps : ∀ s e c s' out, M.step s e c = .ok (s', out) → tells e c = none → own s' = own s
  does : ∀ s e c s' out x, M.step s e c = .ok (s', out) → tells e c = some x →
    (own s).update x.block x.by_ x.action = .ok (own s')

/-- The nomination that is open: the last word, if that is one. -/
def openOffer : List Said → Option (Addr × Option Expiration)
  | [] => none
  | x :: _ =>
    match x.action with
    | .transfer n u => some (n, u)
    | _ => none

/-- The ownership kept is what was said last. -/
def Agrees (o : Option Addr) (w : Ownership) (l : List Said) : Prop :=
  w.owner = ownerAfter o l ∧ w.pendingOwner = (openOffer l).map Prod.fst ∧
    ((openOffer l).map Prod.snd).getD none = w.pendingExpiry

theorem rightful_cons {o : Option Addr} {x : Said} {l : List Said} (hl : Rightful o l)
    (hx : match x.action with
      | .transfer _ _ => ownerAfter o l = some x.by_
      | .renounce => ownerAfter o l = some x.by_
      | .accept => ∃ y rest u, l = y :: rest ∧ y.action = .transfer x.by_ u ∧ inTime x.block u) :
    Rightful o (x :: l) := by
  intro later y earlier h
  cases later with
  | nil => obtain ⟨rfl, rfl⟩ := List.cons.inj h; exact hx
  | cons z later =>
    rw [List.cons_append] at h
    obtain ⟨rfl, h2⟩ := List.cons.inj h
    exact hl later y earlier h2

theorem agrees_step {o : Option Addr} {w w' : Ownership} {l : List Said} {x : Said} (ha : Agrees o w l)
    (hu : w.update x.block x.by_ x.action = .ok w') :
    Agrees o w' (x :: l) ∧
      (match x.action with
        | .transfer _ _ => ownerAfter o l = some x.by_
        | .renounce => ownerAfter o l = some x.by_
        | .accept => ∃ y rest u, l = y :: rest ∧ y.action = .transfer x.by_ u ∧ inTime x.block u) := by
  obtain ⟨b, a, act⟩ := x
  obtain ⟨h1, h2, h3⟩ := ha
  cases act with
  | transfer n e =>
    simp only [Ownership.update, bind_ok, Ownership.assertOwner_ok, Except.ok.injEq] at hu
    obtain ⟨_, ho, rfl⟩ := hu
    exact ⟨⟨h1, rfl, rfl⟩, h1 ▸ ho⟩
  | renounce =>
    simp only [Ownership.update, bind_ok, Ownership.assertOwner_ok, Except.ok.injEq] at hu
    obtain ⟨_, ho, rfl⟩ := hu
    exact ⟨⟨rfl, rfl, rfl⟩, h1 ▸ ho⟩
  | accept =>
    simp only [Ownership.update, bind_ok, require_ok, decide_eq_true_eq, Except.ok.injEq] at hu
    obtain ⟨_, hp, _, he, rfl⟩ := hu
    refine ⟨⟨hp, rfl, rfl⟩, ?_⟩
    rw [hp] at h2
    cases l with
    | nil => simp [openOffer] at h2
    | cons y rest =>
      obtain ⟨b1, a1, act1⟩ := y
      cases act1 with
      | transfer n u =>
        simp only [openOffer, Option.map_some, Option.some.injEq] at h2
        simp only [openOffer, Option.map_some, Option.getD_some] at h3
        refine ⟨_, _, u, rfl, by rw [h2], ?_⟩
        unfold Ownership.expired at he
        rw [← h3] at he
        cases u with
        | none => exact trivial
        | some v => simpa [inTime] using he
      | accept => simp [openOffer] at h2
      | renounce => simp [openOffer] at h2

/-- The owner of an owned contract is told by the calls of `UpdateOwnership`, and all those were rightful. -/
theorem Owned.history {M : Sys S E C O} {own : S → Ownership} {tells : E → C → Option Said} (hM : Owned M own tells)
    {s0 s : S} {b0 b : Block} {log : List (Ev S E C O)} {o : Option Addr} (h0 : own s0 = { owner := o })
    (h : M.Run s0 b0 log s b) : Agrees o (own s) (said tells log) ∧ Rightful o (said tells log) := by
  induction h with
  | refl =>
    rw [h0]
    refine ⟨⟨rfl, rfl, rfl⟩, ?_⟩
    intro later x earlier h
    simp [said] at h
  | @step s1 s2 b1 log env call out hr hb h ih =>
    cases hx : tells env call with
    | none =>
      have : said tells (⟨s1, env, call, out, s2⟩ :: log) = said tells log := by
        simp [said, hx]
      rw [this, hM.keeps _ _ _ _ _ h hx]; exact ih
    | some x =>
      have : said tells (⟨s1, env, call, out, s2⟩ :: log) = x :: said tells log := by
        simp [said, hx]
      rw [this]
      obtain ⟨h1, h2⟩ := agrees_step ih.1 (hM.does _ _ _ _ _ _ h hx)
      exact ⟨h1, rightful_cons ih.2 h2⟩

/-- After a renunciation nothing more is ever said. -/
theorem rightful_renounced {o : Option Addr} {l later earlier : List Said} {x : Said} (hl : Rightful o l)
    (e : l = later ++ x :: earlier) (hx : x.action = .renounce) : later = [] := by
  rcases List.eq_nil_or_concat later with h | ⟨l1, y, rfl⟩
  · exact h
  · have h1 := hl l1 y (x :: earlier) (by rw [e]; simp)
    have hn : ownerAfter o (x :: earlier) = none := by simp [ownerAfter, hx]
    rw [hn] at h1
    cases hy : y.action with
    | transfer n u => rw [hy] at h1; simp at h1
    | renounce => rw [hy] at h1; simp at h1
    | accept =>
      rw [hy] at h1
      obtain ⟨z, rest, u, e1, e2, _⟩ := h1
      obtain ⟨rfl, _⟩ := List.cons.inj e1
      rw [hx] at e2; cases e2

end Verif.Owners
