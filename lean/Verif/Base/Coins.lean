import Verif.Base.Ledger
/-!
# Native coins and cw20 tokens, payments of a contract

Assumed of the bank module and of cw20 contracts: a transfer moves the amount from one balance to another and
fails when the balance is too small or the receiving balance would exceed 128 bits.
-/

namespace Verif

/-- A native denomination or a cw20 token. -/
inductive Token where
  | native (denom : Nat)
  | cw20 (contract : Addr)
  deriving DecidableEq, Repr

/-- A transfer of tokens out of a contract, `BankMsg::Send` or `Cw20ExecuteMsg::Transfer`. -/
structure Pay where
  to : Addr
  token : Token
  amount : Nat
  deriving DecidableEq, Repr

/-- All balances, by token and holder. -/
abbrev Balances := Ledger (Token × Addr)

/-- Coins sent along with a message. -/
def pullCoins (self sender : Addr) : List (Nat × Nat) → Balances → Res Balances
  | [], l => .ok l
  | (d, n) :: rest, l => do
    let l ← l.move (.native d, sender) (.native d, self) n
    pullCoins self sender rest l

/-- Payments out of a contract. -/
def payAll (self : Addr) : List Pay → Balances → Res Balances
  | [], l => .ok l
  | p :: rest, l => do
    let l ← l.move (p.token, self) (p.token, p.to) p.amount
    payAll self rest l

/-- What payments give to an address in a token. -/
def payTo (q : Addr) (t : Token) (ps : List Pay) : Nat :=
  (ps.map (fun p => if p.to = q ∧ p.token = t then p.amount else 0)).sum

/-- What payments give in a token to anybody. -/
def payOf (t : Token) (ps : List Pay) : Nat := (ps.map (fun p => if p.token = t then p.amount else 0)).sum

/-- How much of a token a list of coins has. -/
def coinsOf (t : Token) (coins : List (Nat × Nat)) : Nat :=
  (coins.map (fun c => if Token.native c.1 = t then c.2 else 0)).sum

@[simp] theorem payTo_nil (q : Addr) (t : Token) : payTo q t [] = 0 := rfl
@[simp] theorem payOf_nil (t : Token) : payOf t [] = 0 := rfl
@[simp] theorem payTo_cons (q : Addr) (t : Token) (p : Pay) (ps : List Pay) :
    payTo q t (p :: ps) = (if p.to = q ∧ p.token = t then p.amount else 0) + payTo q t ps := by
  simp [payTo]
@[simp] theorem payOf_cons (t : Token) (p : Pay) (ps : List Pay) :
    payOf t (p :: ps) = (if p.token = t then p.amount else 0) + payOf t ps := by
  simp [payOf]
@[simp] theorem coinsOf_nil (t : Token) : coinsOf t [] = 0 := rfl
@[simp] theorem coinsOf_cons (t : Token) (c : Nat × Nat) (cs : List (Nat × Nat)) :
    coinsOf t (c :: cs) = (if Token.native c.1 = t then c.2 else 0) + coinsOf t cs := by
  simp [coinsOf]
@[simp] theorem payTo_append (q : Addr) (t : Token) (ps qs : List Pay) :
    payTo q t (ps ++ qs) = payTo q t ps + payTo q t qs := by
  simp [payTo]
@[simp] theorem payOf_append (t : Token) (ps qs : List Pay) : payOf t (ps ++ qs) = payOf t ps + payOf t qs := by
  simp [payOf]
@[simp] theorem payOf_one (t : Token) (p : Pay) : payOf t [p] = if p.token = t then p.amount else 0 := by
  simp [payOf]

theorem payTo_le_payOf (q : Addr) (t : Token) (ps : List Pay) : payTo q t ps ≤ payOf t ps := by
  induction ps with
  | nil => exact Nat.le_refl _
  | cons p ps ih =>
    simp only [payTo_cons, payOf_cons]
    by_cases h : p.token = t
    · rw [if_pos h]
      by_cases h' : p.to = q
      · rw [if_pos ⟨h', h⟩]; omega
      · rw [if_neg (fun hh => h' hh.1)]; omega
    · rw [if_neg h, if_neg (fun hh => h hh.2)]; exact Nat.add_le_add_left ih 0

theorem Ledger.move_live {K : Type} [DecidableEq K] {l : Ledger K} {a b : K} {n : Nat} (hab : a ≠ b)
    (h : n ≤ getD0 l a) (hb : getD0 l b + n < U128) : ∃ l', l.move a b n = .ok l' := by
  have h1 : l.debit a n = .ok (AMap.set l a (getD0 l a - n)) := Ledger.debit_ok.2 ⟨h, rfl⟩
  have e : getD0 (AMap.set l a (getD0 l a - n)) b = getD0 l b := by
    rw [getD0_set, if_neg hab]
  have h2 : Ledger.credit (AMap.set l a (getD0 l a - n)) b n =
      .ok (AMap.set (AMap.set l a (getD0 l a - n)) b (getD0 (AMap.set l a (getD0 l a - n)) b + n)) :=
    Ledger.credit_ok.2 ⟨by rw [e]; exact hb, rfl⟩
  exact ⟨_, by rw [Ledger.move, h1, ok_bind, h2]⟩

/-- What payments to others do to the balances. -/
theorem payAll_get {self : Addr} {ps : List Pay} {l l' : Balances} (h : payAll self ps l = .ok l')
    (hto : ∀ p ∈ ps, p.to ≠ self) (t : Token) :
    payOf t ps ≤ getD0 l (t, self) ∧ getD0 l' (t, self) = getD0 l (t, self) - payOf t ps ∧
      ∀ q, q ≠ self → getD0 l' (t, q) = getD0 l (t, q) + payTo q t ps := by
  induction ps generalizing l with
  | nil =>
    simp only [payAll, Except.ok.injEq] at h; subst h
    exact ⟨Nat.zero_le _, rfl, fun _ _ => rfl⟩
  | cons p ps ih =>
    unfold payAll at h
    obtain ⟨l1, h1, h⟩ := (bind_ok _ _ _).mp h
    obtain ⟨i1, i2, i3⟩ := ih h (fun x hx => hto x (List.mem_cons_of_mem _ hx))
    have hp := hto p (List.mem_cons_self ..)
    have hk : (p.token, self) ≠ (p.token, p.to) := by
      intro e; simp only [Prod.mk.injEq, true_and] at e; exact hp e.symm
    have m := fun q => Ledger.move_get h1 hk q
    have ms := m (t, self)
    by_cases ht : p.token = t
    · subst ht
      rw [if_pos rfl] at ms
      simp only [payOf_cons, payTo_cons, if_true, and_true]
      refine ⟨by omega, by omega, ?_⟩
      intro q hq
      rw [i3 q hq, (m (p.token, q)).2,
        if_neg (by intro e; simp only [Prod.mk.injEq, true_and] at e; exact hq e)]
      by_cases hq' : p.to = q
      · subst hq'
        rw [if_pos rfl, if_pos rfl]; omega
      · rw [if_neg (by intro e; simp only [Prod.mk.injEq, true_and] at e; exact hq' e.symm), if_neg hq']; omega
    · have ne : ∀ x y : Addr, (t, x) ≠ (p.token, y) := by
        intro x y e; simp only [Prod.mk.injEq] at e; exact ht e.1.symm
      rw [if_neg (ne _ _), if_neg (ne _ _)] at ms
      simp only [payOf_cons, payTo_cons, if_neg ht]
      refine ⟨by omega, by omega, ?_⟩
      intro q hq
      rw [i3 q hq, (m (t, q)).2, if_neg (ne _ _), if_neg (ne _ _), if_neg (fun hh => ht hh.2)]
      omega

/-- Coins coming in. -/
theorem pullCoins_get {self sender : Addr} {cs : List (Nat × Nat)} {l l' : Balances}
    (h : pullCoins self sender cs l = .ok l') (hs : sender ≠ self) (t : Token) :
    getD0 l' (t, self) = getD0 l (t, self) + coinsOf t cs ∧
      getD0 l' (t, sender) = getD0 l (t, sender) - coinsOf t cs ∧ coinsOf t cs ≤ getD0 l (t, sender) ∧
      ∀ q, q ≠ self → q ≠ sender → getD0 l' (t, q) = getD0 l (t, q) := by
  induction cs generalizing l with
  | nil =>
    simp only [pullCoins, Except.ok.injEq] at h; subst h
    exact ⟨rfl, rfl, Nat.zero_le _, fun _ _ _ => rfl⟩
  | cons c cs ih =>
    obtain ⟨d, n⟩ := c
    unfold pullCoins at h
    obtain ⟨l1, h1, h⟩ := (bind_ok _ _ _).mp h
    obtain ⟨i1, i2, i3, i4⟩ := ih h
    have hk : (Token.native d, sender) ≠ (Token.native d, self) := by
      intro e; simp only [Prod.mk.injEq, true_and] at e; exact hs e
    have m := fun q => Ledger.move_get h1 hk q
    have m1 := m (t, self)
    have m2 := m (t, sender)
    by_cases ht : Token.native d = t
    · subst ht
      rw [if_neg (Ne.symm hk), if_pos rfl] at m1
      rw [if_pos rfl] at m2
      simp only [coinsOf_cons, if_true]
      refine ⟨by omega, by omega, by omega, ?_⟩
      intro q q1 q2
      rw [i4 q q1 q2, (m (_, q)).2, if_neg (by intro e; simp only [Prod.mk.injEq, true_and] at e; exact q2 e),
        if_neg (by intro e; simp only [Prod.mk.injEq, true_and] at e; exact q1 e)]
    · have ne : ∀ x y : Addr, (t, x) ≠ (Token.native d, y) := by
        intro x y e; simp only [Prod.mk.injEq] at e; exact ht e.1.symm
      rw [if_neg (ne _ _), if_neg (ne _ _)] at m1
      rw [if_neg (ne _ _), if_neg (ne _ _)] at m2
      simp only [coinsOf_cons, if_neg ht]
      refine ⟨by omega, by omega, by omega, ?_⟩
      intro q q1 q2
      rw [i4 q q1 q2, (m (t, q)).2, if_neg (ne _ _), if_neg (ne _ _)]

/-- Payments to one other address go through when there is enough of each token and room to receive it. -/
theorem payAll_live {self a : Addr} (ha : a ≠ self) {ps : List Pay} {l : Balances} (hto : ∀ p ∈ ps, p.to = a)
    (hb : ∀ t, payOf t ps ≤ getD0 l (t, self)) (hroom : ∀ t, getD0 l (t, a) + getD0 l (t, self) < U128) :
    ∃ l', payAll self ps l = .ok l' := by
  induction ps generalizing l with
  | nil => exact ⟨l, rfl⟩
  | cons p ps ih =>
    have hp := hto p (List.mem_cons_self ..)
    have hk : (p.token, self) ≠ (p.token, p.to) := by
      intro e; simp only [Prod.mk.injEq, true_and] at e; rw [hp] at e; exact ha e.symm
    have hb1 := hb p.token
    have hr1 := hroom p.token
    simp only [payOf_cons, if_true] at hb1
    obtain ⟨l1, h1⟩ := Ledger.move_live (l := l) (n := p.amount) hk (by omega) (by rw [hp]; omega)
    have m := fun q => Ledger.move_get h1 hk q
    obtain ⟨l2, h2⟩ := ih (l := l1) (fun x hx => hto x (List.mem_cons_of_mem _ hx)) (by
      intro t
      have hbt := hb t
      have ms := (m (t, self)).2
      by_cases ht : p.token = t
      · subst ht
        rw [if_pos rfl] at ms
        simp only [payOf_cons, if_true] at hbt
        omega
      · have ne : ∀ x y : Addr, (t, x) ≠ (p.token, y) := by
          intro x y e; simp only [Prod.mk.injEq] at e; exact ht e.1.symm
        rw [if_neg (ne _ _), if_neg (ne _ _)] at ms
        simp only [payOf_cons, if_neg ht] at hbt
        omega) (by
      intro t
      have hrt := hroom t
      have ms := (m (t, self)).2
      have ma := (m (t, a)).2
      by_cases ht : p.token = t
      · subst ht
        rw [if_pos rfl] at ms
        rw [if_neg (by intro e; simp only [Prod.mk.injEq, true_and] at e; exact ha e), hp, if_pos rfl] at ma
        omega
      · have ne : ∀ x y : Addr, (t, x) ≠ (p.token, y) := by
          intro x y e; simp only [Prod.mk.injEq] at e; exact ht e.1.symm
        rw [if_neg (ne _ _), if_neg (ne _ _)] at ms ma
        omega)
    exact ⟨l2, by unfold payAll; rw [h1, ok_bind, h2]⟩

end Verif
