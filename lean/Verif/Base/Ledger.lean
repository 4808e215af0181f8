import Verif.Base.Core
import Verif.Base.Map
/-!
# Token ledgers

The balances a token contract or the bank module keeps. A transfer fails when the balance does not cover
it or the receiver's balance would overflow; it conserves the supply.
-/

namespace Verif

/-- Balances by account (an account is an address, or an address with a denomination). -/
abbrev Ledger (K : Type) := AMap K Nat

namespace Ledger
variable {K : Type} [DecidableEq K]

/-- Credit `n` to `a` (mint). -/
def credit (l : Ledger K) (a : K) (n : Nat) : Res (Ledger K) := do
  let x ← add128 (getD0 l a) n
  .ok (AMap.set l a x)

/-- Debit `n` from `a` (burn). -/
def debit (l : Ledger K) (a : K) (n : Nat) : Res (Ledger K) := do
  let x ← sub128 (getD0 l a) n
  .ok (AMap.set l a x)

/-- Transfer: debit, then credit, as `cw20_base::contract::execute_transfer` and the bank do. -/
def move (l : Ledger K) (a b : K) (n : Nat) : Res (Ledger K) := do
  let l1 ← l.debit a n
  l1.credit b n

theorem credit_ok {l l' : Ledger K} {a : K} {n : Nat} :
    l.credit a n = .ok l' ↔ getD0 l a + n < U128 ∧ l' = AMap.set l a (getD0 l a + n) := by
  simp only [credit, bind_ok, add128_ok, Except.ok.injEq]
  constructor
  · rintro ⟨_, ⟨h, rfl⟩, rfl⟩; exact ⟨h, rfl⟩
  · rintro ⟨h, rfl⟩; exact ⟨_, ⟨h, rfl⟩, rfl⟩

theorem debit_ok {l l' : Ledger K} {a : K} {n : Nat} :
    l.debit a n = .ok l' ↔ n ≤ getD0 l a ∧ l' = AMap.set l a (getD0 l a - n) := by
  simp only [debit, bind_ok, sub128_ok, Except.ok.injEq]
  constructor
  · rintro ⟨_, ⟨h, rfl⟩, rfl⟩; exact ⟨h, rfl⟩
  · rintro ⟨h, rfl⟩; exact ⟨_, ⟨h, rfl⟩, rfl⟩

theorem credit_get {l l' : Ledger K} {a : K} {n : Nat} (h : l.credit a n = .ok l') (q : K) :
    getD0 l' q = if a = q then getD0 l a + n else getD0 l q := by
  obtain ⟨_, rfl⟩ := credit_ok.1 h; exact getD0_set _ _ _ _

theorem debit_get {l l' : Ledger K} {a : K} {n : Nat} (h : l.debit a n = .ok l') (q : K) :
    getD0 l' q = if a = q then getD0 l a - n else getD0 l q := by
  obtain ⟨_, rfl⟩ := debit_ok.1 h; exact getD0_set _ _ _ _

/-- The balance of every account after a transfer between different accounts. -/
theorem move_get {l l' : Ledger K} {a b : K} {n : Nat} (h : l.move a b n = .ok l') (hab : a ≠ b) (q : K) :
    n ≤ getD0 l a ∧
    getD0 l' q = if q = a then getD0 l a - n else if q = b then getD0 l b + n else getD0 l q := by
  simp only [move, bind_ok] at h
  obtain ⟨l1, h1, h2⟩ := h
  have hle := (debit_ok.1 h1).1
  refine ⟨hle, ?_⟩
  rw [credit_get h2, debit_get h1, debit_get h1]
  have hba : ¬ b = a := Ne.symm hab
  by_cases hqa : q = a
  · subst hqa; simp [hba]
  · by_cases hqb : q = b
    · subst hqb; simp [hqa, Ne.symm hqa, hab]
    · simp [hqa, hqb, Ne.symm hqa, Ne.symm hqb]

/-- Nobody but the sender loses by a transfer, whoever receives. -/
theorem move_other {l l' : Ledger K} {a b q : K} {n : Nat} (h : l.move a b n = .ok l') (hq : q ≠ a) :
    getD0 l' q = getD0 l q + if b = q then n else 0 := by
  simp only [move, bind_ok] at h
  obtain ⟨l1, h1, h2⟩ := h
  rw [credit_get h2, debit_get h1, debit_get h1]
  by_cases hb : b = q
  · subst hb; simp [Ne.symm hq]
  · simp [hb, Ne.symm hq]

theorem move_total {l l' : Ledger K} {a b : K} {n : Nat} (h : l.move a b n = .ok l') :
    total l' = total l := by
  simp only [move, bind_ok] at h
  obtain ⟨l1, h1, h2⟩ := h
  obtain ⟨h3, rfl⟩ := debit_ok.1 h1
  obtain ⟨h5, rfl⟩ := credit_ok.1 h2
  have e1 := total_set l a (getD0 l a - n)
  have e2 := total_set (AMap.set l a (getD0 l a - n)) b (getD0 (AMap.set l a (getD0 l a - n)) b + n)
  omega

theorem credit_total {l l' : Ledger K} {a : K} {n : Nat} (h : l.credit a n = .ok l') :
    total l' = total l + n := by
  obtain ⟨_, rfl⟩ := credit_ok.1 h
  have := total_set l a (getD0 l a + n)
  omega

theorem debit_total {l l' : Ledger K} {a : K} {n : Nat} (h : l.debit a n = .ok l') :
    total l' + n = total l := by
  obtain ⟨h1, rfl⟩ := debit_ok.1 h
  have := total_set l a (getD0 l a - n)
  omega

/-- A covered transfer succeeds as long as the supply fits. -/
theorem move_total_ok {l : Ledger K} {a b : K} {n : Nat} (h : n ≤ getD0 l a) (ht : total l < U128) :
    ∃ l', l.move a b n = .ok l' := by
  have h1 : l.debit a n = .ok (AMap.set l a (getD0 l a - n)) := debit_ok.2 ⟨h, rfl⟩
  have e1 := debit_total h1
  have e2 := getD0_le_total (AMap.set l a (getD0 l a - n)) b
  have h2 : Ledger.credit (AMap.set l a (getD0 l a - n)) b n =
      .ok (AMap.set (AMap.set l a (getD0 l a - n)) b (getD0 (AMap.set l a (getD0 l a - n)) b + n)) :=
    credit_ok.2 ⟨by omega, rfl⟩
  exact ⟨_, by rw [move, h1, ok_bind, h2]⟩

end Ledger
end Verif
