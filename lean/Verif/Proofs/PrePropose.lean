import Verif.Spec.PrePropose
import Verif.Proofs.PreProposeLaws
/-! Histories of a pre-propose module. -/

namespace Verif.PrePropose
open Verif Verif.Voting Verif.Spec.PrePropose
open Verif.Spec (Final)

variable {M : PropModule}

/-! ## The single messages -/

theorem mem_insertSorted {a x : Addr} {l : List Addr} : x ∈ insertSorted a l ↔ x = a ∨ x ∈ l := by
  induction l with
  | nil => simp [insertSorted]
  | cons b l ih =>
    simp only [insertSorted]
    split
    · simp
    · simp only [List.mem_cons, ih]
      constructor
      · rintro (h | h | h) <;> simp [h]
      · rintro (h | h | h) <;> simp [h]

theorem mem_sortAddrs {x : Addr} {l : List Addr} : x ∈ sortAddrs l ↔ x ∈ l := by
  induction l with
  | nil => simp [sortAddrs]
  | cons b l ih => simp [sortAddrs, mem_insertSorted, ih]

theorem mem_dedupAdjacent {x : Addr} {l : List Addr} : x ∈ dedupAdjacent l ↔ x ∈ l := by
  fun_induction dedupAdjacent l with
  | case1 => simp
  | case2 => simp
  | case3 a l ih => simp [ih]
  | case4 a b l h ih => simp [ih]

/-- A list after additions and removals: removals win. -/
theorem mem_addRemove {x : Addr} {l : List Addr} {add remove : Option (List Addr)} :
    x ∈ addRemove l add remove ↔
      (x ∈ l ∨ ∃ a, add = some a ∧ x ∈ a) ∧ ∀ r, remove = some r → x ∉ r := by
  cases add <;> cases remove <;> simp [addRemove, mem_dedupAdjacent, mem_sortAddrs]

theorem checkCanSubmit_ok {p : Policy} {power : Addr → Nat} {a : Addr} {u : Unit} :
    checkCanSubmit p power a = .ok u ↔ MaySubmit p power a := by
  cases p with
  | anyone deny => simp [checkCanSubmit, MaySubmit]
  | specific members allow deny =>
    simp only [checkCanSubmit, MaySubmit, List.contains_iff_mem]
    by_cases h1 : a ∈ deny
    · simp [h1]
    · by_cases h2 : a ∈ allow
      · simp [h1, h2]
      · cases members <;> simp [h1, h2]

theorem validate_ok {p : Policy} {u : Unit} : p.validate = .ok u ↔ SoundPolicy p := by
  cases p with
  | anyone deny => simp [Policy.validate, SoundPolicy]
  | specific members allow deny =>
    simp only [Policy.validate, SoundPolicy, bind_ok, require_ok, exists_const, Bool.or_eq_true]
    constructor
    · rintro ⟨h1, h2⟩
      refine ⟨?_, ?_⟩
      · intro a ha hd
        simp only [Bool.not_eq_true', List.any_eq_false] at h1
        exact h1 a hd (by simp; exact ha)
      · rcases h2 with h2 | h2
        · exact Or.inl h2
        · right
          cases allow with
          | nil => simp at h2
          | cons a l => exact ⟨a, List.mem_cons_self ..⟩
    · rintro ⟨h1, h2⟩
      refine ⟨?_, ?_⟩
      · simp only [Bool.not_eq_true', List.any_eq_false]
        intro a ha hb
        simp at hb
        exact h1 a hb ha
      · rcases h2 with h2 | ⟨a, ha⟩
        · exact Or.inl h2
        · right
          cases allow with
          | nil => simp at ha
          | cons a l => rfl

/-- A deposit that passed the check. -/
def GoodDeposit : Option Deposit → Prop
  | none => True
  | some d => d.amount ≠ 0 ∧ d.amount < U128

theorem checkDeposit_ok {d : Option Deposit} {u : Unit} : checkDeposit d = .ok u ↔ GoodDeposit d := by
  cases d with
  | none => simp [checkDeposit, GoodDeposit]
  | some d => simp only [checkDeposit, GoodDeposit, require_ok, decide_eq_true_eq]

theorem mustPay_ok {funds : List (Nat × Nat)} {d n : Nat} (h : mustPay funds d = .ok n) : funds = [(d, n)] := by
  unfold mustPay at h
  split at h
  · split at h
    · rename_i hd
      injection h with h; subst h
      rw [hd.1]
    · cases h
  · cases h

/-- What a submission does to the contract, and what it costs. -/
theorem execPropose_ok {s s' : Pre} {power : Addr → Nat} {a : Addr} {funds : List (Nat × Nat)} {id : Nat}
    {ts : List (Addr × Token × Nat)} (h : execPropose s power a funds id = .ok (s', ts)) :
    MaySubmit s.config.policy power a ∧ s' = { s with deposits := s.deposits.set id (s.config.deposit, a) } ∧
      (∀ t, amountIn t s.config.deposit ≤ coinsOf t funds + (ts.map (fun x => if x.2.1 = t then x.2.2 else 0)).sum) ∧
      ∀ x ∈ ts, x.1 = a := by
  unfold execPropose at h
  obtain ⟨_, h1, h⟩ := (bind_ok _ _ _).mp h
  refine ⟨checkCanSubmit_ok.1 h1, ?_⟩
  cases hd : s.config.deposit with
  | none =>
    rw [hd] at h
    simp only [Except.ok.injEq, Prod.mk.injEq] at h
    obtain ⟨rfl, rfl⟩ := h
    exact ⟨rfl, fun t => Nat.zero_le _, by simp⟩
  | some d =>
    rw [hd] at h
    simp only [bind_ok, Except.ok.injEq, Prod.mk.injEq] at h
    obtain ⟨_, h2, rfl, rfl⟩ := h
    refine ⟨rfl, ?_, ?_⟩
    · intro t
      simp only [amountIn]
      split
      · rename_i ht
        unfold checkPaid at h2
        unfold takeMsgs
        cases htok : d.token with
        | native n =>
          rw [htok] at h2
          simp only [bind_ok, require_ok, decide_eq_true_eq] at h2
          obtain ⟨paid, h3, h4⟩ := h2
          have := mustPay_ok h3
          subst this
          simp [← ht, htok, h4]
        | cw20 c =>
          simp only
          split
          · omega
          · simp [← ht, htok]
      · exact Nat.zero_le _
    · intro x hx
      unfold takeMsgs at hx
      split at hx
      · simp at hx
      · split at hx
        · simp at hx
        · simp only [List.mem_singleton] at hx
          subst hx; rfl

/-- What the other messages do: they do not touch deposits, and only a withdrawal pays. -/
structure Kept (s s' : Pre) : Prop where
  module : s'.module = s.module
  dao : s'.dao = s.dao
  deposits : s'.deposits = s.deposits
  deposit : GoodDeposit s.config.deposit → GoodDeposit s'.config.deposit
  policy : SoundPolicy s.config.policy → SoundPolicy s'.config.policy

theorem exec_kept {s s' : Pre} {a : Addr} {bal : Token → Nat} {m : Msg} {ps : List Pay}
    (h : exec s a bal m = .ok (s', ps)) :
    Kept s s' ∧ ((ps = []) ∨ ∃ t t', m = .withdraw t ∧ withdrawToken s t = some t' ∧ a = s.dao ∧ bal t' ≠ 0 ∧
      ps = [⟨s.dao, t', bal t'⟩] ∧ s' = s) := by
  cases m with
  | updateConfig dep pol =>
    simp only [exec, execUpdateConfig, bind_ok, require_ok, Except.ok.injEq, Prod.mk.injEq, checkDeposit_ok] at h
    obtain ⟨s1, ⟨_, _, _, h2, h3⟩, rfl, rfl⟩ := h
    refine ⟨?_, Or.inl rfl⟩
    cases pol with
    | none =>
      simp only [Except.ok.injEq] at h3; subst h3
      exact ⟨rfl, rfl, rfl, fun _ => h2, fun h => h⟩
    | some p =>
      simp only [bind_ok, Except.ok.injEq, validate_ok] at h3
      obtain ⟨_, hp, rfl⟩ := h3
      exact ⟨rfl, rfl, rfl, fun _ => h2, fun _ => hp⟩
  | updatePolicy da dr sm aa ar =>
    simp only [exec, execUpdatePolicy, bind_ok, require_ok, Except.ok.injEq, Prod.mk.injEq] at h
    obtain ⟨s1, ⟨_, _, h3⟩, rfl, rfl⟩ := h
    refine ⟨?_, Or.inl rfl⟩
    split at h3
    · simp only [bind_ok, Except.ok.injEq, validate_ok, require_ok] at h3
      obtain ⟨_, _, _, hp, rfl⟩ := h3
      exact ⟨rfl, rfl, rfl, fun h => h, fun _ => hp⟩
    · simp only [bind_ok, Except.ok.injEq, validate_ok, require_ok] at h3
      obtain ⟨_, hp, rfl⟩ := h3
      exact ⟨rfl, rfl, rfl, fun h => h, fun _ => hp⟩
  | withdraw t =>
    simp only [exec, execWithdraw, bind_ok, require_ok, orErr_ok, decide_eq_true_eq, Except.ok.injEq,
      Prod.mk.injEq] at h
    obtain ⟨ps1, ⟨_, h1, t', h2, _, h3, rfl⟩, rfl, rfl⟩ := h
    exact ⟨⟨rfl, rfl, rfl, fun h => h, fun h => h⟩, Or.inr ⟨t, t', rfl, h2, h1, h3, rfl, rfl⟩⟩
  | addHook x =>
    simp only [exec, execAddHook, bind_ok, require_ok, Except.ok.injEq, Prod.mk.injEq] at h
    obtain ⟨s1, ⟨_, _, hk, _, rfl⟩, rfl, rfl⟩ := h
    exact ⟨⟨rfl, rfl, rfl, fun h => h, fun h => h⟩, Or.inl rfl⟩
  | removeHook x =>
    simp only [exec, execRemoveHook, bind_ok, require_ok, Except.ok.injEq, Prod.mk.injEq] at h
    obtain ⟨s1, ⟨_, _, hk, _, rfl⟩, rfl, rfl⟩ := h
    exact ⟨⟨rfl, rfl, rfl, fun h => h, fun h => h⟩, Or.inl rfl⟩
  | extension =>
    simp only [exec, Except.ok.injEq, Prod.mk.injEq] at h
    obtain ⟨rfl, rfl⟩ := h
    exact ⟨⟨rfl, rfl, rfl, fun h => h, fun h => h⟩, Or.inl rfl⟩

theorem refund_iff {st : Status} {r : Refund} :
    refundToProposer st r = true ↔ r = .always ∨ (r = .onlyPassed ∧ st = .executed) := by
  cases st <;> cases r <;> simp [refundToProposer]

theorem returnMsgs_eq {d : Deposit} (h : d.amount ≠ 0) (a : Addr) :
    returnMsgs d a = [⟨a, d.token, d.amount⟩] := by simp [returnMsgs, h]

/-- What the completion hook pays. -/
theorem execCompleted_ok {s : Pre} {a : Addr} {id : Nat} {st : Status} {ps : List Pay}
    (hg : ∀ d p, s.deposits.get id = some (d, p) → GoodDeposit d)
    (h : execCompleted s a id st = .ok ps) :
    a = s.module ∧ (st = .closed ∨ st = .executed ∨ st = .vetoed) ∧
      ps = payment (s.deposits.get id) s.dao st := by
  unfold execCompleted at h
  simp only [bind_ok, require_ok, decide_eq_true_eq] at h
  obtain ⟨_, h1, _, h2, h3⟩ := h
  refine ⟨h1, h2, ?_⟩
  cases hd : s.deposits.get id with
  | none => rw [hd] at h3; simp only [Except.ok.injEq] at h3; subst h3; rfl
  | some x =>
    obtain ⟨d, p⟩ := x
    cases d with
    | none => rw [hd] at h3; simp only [Except.ok.injEq] at h3; subst h3; rfl
    | some d =>
      rw [hd] at h3; simp only [Except.ok.injEq] at h3; subst h3
      have hgd : GoodDeposit (some d) := hg _ _ hd
      rw [returnMsgs_eq hgd.1]
      simp only [payment, receiver]
      congr 2
      by_cases hr : d.refund = .always ∨ (d.refund = .onlyPassed ∧ st = .executed)
      · rw [if_pos hr, if_pos (refund_iff.2 hr)]
      · rw [if_neg hr, if_neg (fun h => hr (refund_iff.1 h))]

end Verif.PrePropose
