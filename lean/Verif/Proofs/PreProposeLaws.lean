import Verif.Model.PrePropose
import Verif.Spec.SingleHistory
/-! What a pre-propose module relies on in its proposal module. -/

namespace Verif.PrePropose
open Verif Verif.Voting
open Verif.Spec (Final)

/-- The status a completion hook reports, and the status recorded for the proposal: the hook says `executed` also when
the proposal's messages failed. -/
inductive Reports : Status → Status → Prop where
  | closed : Reports .closed .closed
  | vetoed : Reports .vetoed .vetoed
  | executed : Reports .executed .executed
  | failed : Reports .executed .executionFailed

theorem Reports.final {a b : Status} (h : Reports a b) : Final b := by cases h <;> trivial
theorem Reports.done {a b : Status} (h : Reports a b) : a = .closed ∨ a = .executed ∨ a = .vetoed := by
  cases h <;> simp

/-- The hook for a completed proposal under a creation policy. -/
def hookOf (p : CreationPolicy) (id : Nat) (st : Status) : List (Addr × Nat × Status) :=
  match p with
  | .anyone => []
  | .module a => [(a, id, st)]

/-- The laws, with an invariant `inv` of the proposal module. -/
structure LawfulBy (M : PropModule) (inv : M.St → Prop) : Prop where
  init_inv : ∀ {b s}, M.init b s → inv s
  step_inv : ∀ {s s' e c o}, inv s → M.step s e c = .ok (s', o) → inv s'
  called : ∀ e a, M.sender (M.calledBy e a) = a ∧ M.block (M.calledBy e a) = M.block e
  count_step : ∀ {s s' e c o}, inv s → M.step s e c = .ok (s', o) →
    (o.newId = some (M.count s + 1) ∧ M.count s' = M.count s + 1) ∨ (o.newId = none ∧ M.count s' = M.count s)
  propose_new : ∀ {s s' e a p o}, M.step s e (M.propose a p) = .ok (s', o) →
    o.newId = some (M.count s + 1) ∧ M.policy s = .module (M.sender e)
  new_by : ∀ {s s' e c o}, M.step s e c = .ok (s', o) → o.newId ≠ none →
    M.policy s = .anyone ∨ M.policy s = .module (M.sender e)
  status_count : ∀ {s id st}, inv s → M.statusOf s id = some st → id ≤ M.count s
  final_stays : ∀ {s s' e c o id st}, inv s → M.step s e c = .ok (s', o) → M.statusOf s id = some st → Final st →
    M.statusOf s' id = some st
  completed : ∀ {s s' e c o}, inv s → M.step s e c = .ok (s', o) →
    (o.completed = [] ∧ ∀ id st, M.statusOf s' id = some st → Final st → M.statusOf s id = some st) ∨
    ∃ id st st' st0, o.completed = hookOf (M.policy s) id st ∧ M.statusOf s id = some st0 ∧ ¬ Final st0 ∧
      M.statusOf s' id = some st' ∧ Reports st st' ∧ ∀ id', id' ≠ id → M.statusOf s' id' = M.statusOf s id'
  failed : ∀ {s s'}, inv s → M.hookFailed s = .ok s' →
    inv s' ∧ M.count s' = M.count s ∧ M.statusOf s' = M.statusOf s ∧ M.policy s' = .anyone
  failed_live : ∀ {s a}, M.policy s = .module a → ∃ s', M.hookFailed s = .ok s'

/-- A proposal module that obeys the laws. -/
def Lawful (M : PropModule) : Prop := ∃ inv, LawfulBy M inv

end Verif.PrePropose
