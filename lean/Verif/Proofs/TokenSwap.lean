import Verif.Spec.TokenSwap
/-!
# Accounts of a token swap
-/

namespace Verif.TokenSwap

open Verif.Spec.TokenSwap

theorem move_live {K : Type} [DecidableEq K] {l : Ledger K} {a b : K} {n : Nat} (hab : a ≠ b) (h : n ≤ getD0 l a)
    (hb : getD0 l b + n < U128) : ∃ l', l.move a b n = .ok l' := by
  have h1 : l.debit a n = .ok (AMap.set l a (getD0 l a - n)) := Ledger.debit_ok.2 ⟨h, rfl⟩
  have e : getD0 (AMap.set l a (getD0 l a - n)) b = getD0 l b := by
    rw [getD0_set, if_neg hab]
  have h2 : Ledger.credit (AMap.set l a (getD0 l a - n)) b n =
      .ok (AMap.set (AMap.set l a (getD0 l a - n)) b (getD0 (AMap.set l a (getD0 l a - n)) b + n)) :=
    Ledger.credit_ok.2 ⟨by rw [e]; exact hb, rfl⟩
  exact ⟨_, by rw [Ledger.move, h1, ok_bind, h2]⟩

/-- What a transaction can do. `sd` is the side of the sender. -/
inductive Effect (w : World) : Call → World → List Pay → Prop
  | fund (call : Call) (sd : Bool) (l1 l2 : Ledger (Token × Addr)) : call.sender = (w.c.party sd).address →
      (∀ x, call ≠ .withdraw x) → (w.c.party sd).provided = false →
      (∀ q t, paysIn q t call = if q = (w.c.party sd).address then promise (w.c.party sd) t else 0) →
      w.ledger.move ((w.c.party sd).token, (w.c.party sd).address) ((w.c.party sd).token, w.self)
        (w.c.party sd).amount = .ok l1 →
      push w.self (swapMsgs { w.c.party sd with provided := true } (w.c.party !sd)) l1 = .ok l2 →
      Effect w call { w with c := w.c.put sd { w.c.party sd with provided := true }, ledger := l2 }
        (swapMsgs { w.c.party sd with provided := true } (w.c.party !sd))
  | withdraw (a : Addr) (sd : Bool) (l : Ledger (Token × Addr)) : a = (w.c.party sd).address →
      (w.c.party sd).provided = true → (w.c.party !sd).provided = false →
      w.ledger.move ((w.c.party sd).token, w.self) ((w.c.party sd).token, (w.c.party sd).address)
        (w.c.party sd).amount = .ok l →
      Effect w (.withdraw a) { w with c := w.c.put sd { w.c.party sd with provided := false }, ledger := l }
        [⟨(w.c.party sd).address, (w.c.party sd).token, (w.c.party sd).amount⟩]
  | transfer (t : Token) (a b : Addr) (n : Nat) (l : Ledger (Token × Addr)) : a ≠ w.self →
      w.ledger.move (t, a) (t, b) n = .ok l → Effect w (.transfer t a b n) { w with ledger := l } []

theorem side_ok {s : State} {a : Addr} {sd : Bool} (h : side s a = .ok sd) : a = (s.party sd).address := by
  unfold side at h
  split at h
  · simp only [Except.ok.injEq] at h; subst h; assumption
  · split at h
    · simp only [Except.ok.injEq] at h; subst h; assumption
    · cases h

theorem doFund_ok {s : State} {sd : Bool} {n : Nat} {r : State × List Pay} (h : doFund s sd n = .ok r) :
    (s.party sd).provided = false ∧ n = (s.party sd).amount ∧
    r = (s.put sd { s.party sd with provided := true },
      swapMsgs { s.party sd with provided := true } (s.party !sd)) := by
  unfold doFund at h
  obtain ⟨_, h1, h⟩ := (bind_ok _ _ _).mp h
  obtain ⟨_, h2, h⟩ := (bind_ok _ _ _).mp h
  have h1 := (require_ok _ _ _).mp h1
  have h2 := (require_ok _ _ _).mp h2
  simp only [Bool.not_eq_true', decide_eq_true_eq] at h1 h2
  simp only [Except.ok.injEq] at h
  exact ⟨h1, h2, h.symm⟩

theorem step_effect {w w' : World} {b : Block} {call : Call} {o : List Pay} (h : sys.step w b call = .ok (w', o)) :
    call.sender ≠ w.self ∧ Effect w call w' o := by
  change step w b call = _ at h
  unfold step at h
  obtain ⟨_, h0, h⟩ := (bind_ok _ _ _).mp h
  have h0 := (require_ok _ _ _).mp h0
  simp only [decide_eq_true_eq] at h0
  refine ⟨h0, ?_⟩
  cases call with
  | fund a coins =>
    simp only at h
    obtain ⟨l1, hl, h⟩ := (bind_ok _ _ _).mp h
    obtain ⟨r, hr, h⟩ := (bind_ok _ _ _).mp h
    obtain ⟨l2, hp, h⟩ := (bind_ok _ _ _).mp h
    simp only [Except.ok.injEq, Prod.mk.injEq] at h
    obtain ⟨rfl, rfl⟩ := h
    unfold fund at hr
    obtain ⟨sd, h1, hr⟩ := (bind_ok _ _ _).mp hr
    obtain ⟨d, h2, hr⟩ := (bind_ok _ _ _).mp hr
    obtain ⟨n, h3, hr⟩ := (bind_ok _ _ _).mp hr
    have ha := side_ok h1
    obtain ⟨k1, k2, rfl⟩ := doFund_ok hr
    have ht : (w.c.party sd).token = .native d := by
      cases hk : (w.c.party sd).token with
      | native x => rw [hk] at h2; simp only [nativeDenom, Except.ok.injEq] at h2; rw [h2]
      | cw20 x => rw [hk] at h2; cases h2
    unfold mustPay at h3
    split at h3
    · rename_i d' n'
      split at h3
      · rename_i hd
        obtain ⟨rfl, hn⟩ := hd
        simp only [Except.ok.injEq] at h3
        subst h3
        unfold pull at hl
        obtain ⟨l3, hl1, hl⟩ := (bind_ok _ _ _).mp hl
        simp only [pull, Except.ok.injEq] at hl
        subst hl
        refine .fund _ sd l3 l2 ha (fun _ h => nomatch h) k1 ?_ ?_ hp
        · intro q t
          simp only [paysIn, List.map_cons, List.map_nil, List.sum_cons, List.sum_nil, Nat.add_zero, promise, ht, ← ha,
            ← k2, eq_comm]
        · rw [ht, ← ha, ← k2]; exact hl1
      · cases h3
    · cases h3
  | send t a n =>
    simp only at h
    obtain ⟨l1, hl, h⟩ := (bind_ok _ _ _).mp h
    obtain ⟨r, hr, h⟩ := (bind_ok _ _ _).mp h
    obtain ⟨l2, hp, h⟩ := (bind_ok _ _ _).mp h
    simp only [Except.ok.injEq, Prod.mk.injEq] at h
    obtain ⟨rfl, rfl⟩ := h
    unfold receive at hr
    obtain ⟨sd, h1, hr⟩ := (bind_ok _ _ _).mp hr
    obtain ⟨_, h2, hr⟩ := (bind_ok _ _ _).mp hr
    have h2 := (require_ok _ _ _).mp h2
    simp only [decide_eq_true_eq] at h2
    have ha := side_ok h1
    obtain ⟨k1, k2, rfl⟩ := doFund_ok hr
    refine .fund _ sd l1 l2 ha (fun _ h => nomatch h) k1 ?_ ?_ hp
    · intro q x
      simp only [paysIn, promise, h2, ← ha, ← k2]
      by_cases hq : a = q
      · subst hq
        simp
      · rw [if_neg (fun hh => hq hh.1), if_neg (Ne.symm hq)]
    · rw [h2, ← ha, ← k2]; exact hl
  | withdraw a =>
    simp only at h
    obtain ⟨r, hr, h⟩ := (bind_ok _ _ _).mp h
    obtain ⟨l2, hp, h⟩ := (bind_ok _ _ _).mp h
    simp only [Except.ok.injEq, Prod.mk.injEq] at h
    obtain ⟨rfl, rfl⟩ := h
    unfold withdraw at hr
    obtain ⟨sd, h1, hr⟩ := (bind_ok _ _ _).mp hr
    obtain ⟨_, h2, hr⟩ := (bind_ok _ _ _).mp hr
    obtain ⟨_, h3, hr⟩ := (bind_ok _ _ _).mp hr
    have h2 := (require_ok _ _ _).mp h2
    have h3 := (require_ok _ _ _).mp h3
    simp only [Bool.not_eq_true'] at h3
    simp only [Except.ok.injEq] at hr
    subst hr
    unfold push at hp
    obtain ⟨l3, hl, hp⟩ := (bind_ok _ _ _).mp hp
    simp only [push, Except.ok.injEq] at hp
    subst hp
    exact .withdraw a sd l3 (side_ok h1) h2 h3 hl
  | transfer t a b n =>
    simp only at h
    obtain ⟨l, hl, h⟩ := (bind_ok _ _ _).mp h
    simp only [Except.ok.injEq, Prod.mk.injEq] at h
    obtain ⟨rfl, rfl⟩ := h
    exact .transfer t a b n l h0 hl

/-! ## The invariant -/

/-- What the log says of one party. -/
def Acct (p other : Party) (log : Log) : Prop :=
  if p.provided then (if other.provided then Swapped p other log else Waiting p log) else Even p log

/-- What the contract holds for a party. -/
def held (p : Party) (t : Token) : Nat := if p.provided then promise p t else 0

structure Inv (T : (Addr × Token × Nat) × (Addr × Token × Nat)) (me : Addr) (w : World) (log : Log) : Prop where
  terms : terms w.c = T
  own : w.self = me
  distinct : w.c.one.address ≠ w.c.two.address
  notSelf : ∀ sd, (w.c.party sd).address ≠ w.self
  acct : ∀ sd, Acct (w.c.party sd) (w.c.party !sd) log
  others : ∀ q t, (∀ sd, q ≠ (w.c.party sd).address) → received q t log = 0
  funds : ¬ (w.c.one.provided = true ∧ w.c.two.provided = true) →
    ∀ t, held w.c.one t + held w.c.two t ≤ getD0 w.ledger (t, w.self)

theorem inv_init {b : Block} {w : World} (h : sys.init b w) :
    Inv (terms w.c) w.self w [] ∧ w.c.one.provided = false ∧ w.c.two.provided = false := by
  obtain ⟨⟨a1, t1, n1, a2, t2, n2, hi⟩, h1, h2⟩ := h
  unfold instantiate at hi
  obtain ⟨p1, k1, hi⟩ := (bind_ok _ _ _).mp hi
  obtain ⟨p2, k2, hi⟩ := (bind_ok _ _ _).mp hi
  obtain ⟨_, k3, hi⟩ := (bind_ok _ _ _).mp hi
  have k3 := (require_ok _ _ _).mp k3
  simp only [decide_eq_true_eq] at k3
  unfold checked at k1 k2
  obtain ⟨_, _, k1⟩ := (bind_ok _ _ _).mp k1
  obtain ⟨_, _, k2⟩ := (bind_ok _ _ _).mp k2
  simp only [Except.ok.injEq] at k1 k2 hi
  have e1 : w.c.one.provided = false := by rw [← hi, ← k1]
  have e2 : w.c.two.provided = false := by rw [← hi, ← k2]
  refine ⟨⟨rfl, rfl, ?_, ?_, ?_, ?_, ?_⟩, e1, e2⟩
  · rw [← hi]; exact k3
  · intro sd; cases sd
    · exact h2
    · exact h1
  · intro sd
    have : (w.c.party sd).provided = false := by cases sd <;> assumption
    unfold Acct
    rw [this]
    intro t
    rfl
  · intro q t _; rfl
  · intro _ t
    simp [held, e1, e2]

theorem put_party_self (s : State) (sd : Bool) (p : Party) : (s.put sd p).party sd = p := by
  cases sd <;> rfl
theorem put_party_other (s : State) (sd : Bool) (p : Party) : (s.put sd p).party (!sd) = s.party (!sd) := by
  cases sd <;> rfl

theorem addr_ne {T S w log} (h : Inv T S w log) (sd : Bool) :
    (w.c.party sd).address ≠ (w.c.party !sd).address := by
  cases sd
  · exact Ne.symm h.distinct
  · exact h.distinct

theorem put_terms {s : State} {sd x : Bool} :
    terms (s.put sd { s.party sd with provided := x }) = terms s := by
  cases sd <;> rfl

theorem put_one_address {s : State} {sd x : Bool} (q : Bool) :
    ((s.put sd { s.party sd with provided := x }).party q).address = (s.party q).address := by
  cases sd <;> cases q <;> rfl

/-- `held` of both parties, from one side. -/
theorem held_side (s : State) (sd : Bool) (t : Token) :
    held s.one t + held s.two t = held (s.party sd) t + held (s.party !sd) t := by
  cases sd
  · exact Nat.add_comm _ _
  · rfl

theorem both_side (s : State) (sd : Bool) :
    (s.one.provided = true ∧ s.two.provided = true) ↔
      ((s.party sd).provided = true ∧ (s.party !sd).provided = true) := by
  cases sd
  · exact And.comm
  · exact Iff.rfl

theorem inv_step {T S} {w w' : World} {b : Block} {call : Call} {o : List Pay} {log : Log}
    (ih : Inv T S w log) (h : sys.step w b call = .ok (w', o)) : Inv T S w' (⟨w, b, call, o, w'⟩ :: log) := by
  obtain ⟨hself, he⟩ := step_effect h
  cases he with
  | transfer t a c n l ha hl =>
    refine ⟨ih.terms, ih.own, ih.distinct, ih.notSelf, ?_, ?_, ?_⟩
    · intro sd
      have := ih.acct sd
      unfold Acct Swapped Waiting Even at *
      simpa [paid, received, paysIn] using this
    · intro q t hq
      have := ih.others q t hq
      simpa [received] using this
    · intro hb x
      have h1 := ih.funds hb x
      have h2 := Ledger.move_other (q := (x, w.self)) hl (by
        intro e; simp only [Prod.mk.injEq] at e; exact ha e.2.symm)
      simp only at h1 ⊢
      omega
  | withdraw a sd l ha hp hop hl =>
    have hne := addr_ne ih sd
    have acc := ih.acct sd
    have acc' := ih.acct (!sd)
    rw [Bool.not_not] at acc'
    unfold Acct at acc acc'
    rw [hp, hop] at acc
    rw [hop] at acc'
    simp only [if_true, Bool.false_eq_true, if_false, Waiting, Even] at acc acc'
    have hparty : ∀ q, ((w.c.put sd { w.c.party sd with provided := false }).party q).address =
      (w.c.party q).address := put_one_address
    refine ⟨put_terms.trans ih.terms, ih.own, ?_, ?_, ?_, ?_, ?_⟩
    · have h1 := hparty true
      have h2 := hparty false
      have h3 : ((w.c.put sd { w.c.party sd with provided := false }).party true).address ≠
        ((w.c.put sd { w.c.party sd with provided := false }).party false).address := by
        rw [h1, h2]; exact ih.distinct
      exact h3
    · intro q; simp only [hparty]; exact ih.notSelf q
    · intro q
      have key : q = sd ∨ q = !sd := by cases q <;> cases sd <;> simp
      rcases key with rfl | rfl
      · simp only [put_party_self, put_party_other]
        unfold Acct
        simp only [Bool.false_eq_true, if_false, Even]
        intro t
        have h1 := acc t
        simp only [paid, received, paysIn, List.map_cons, List.map_nil, List.sum_cons, List.sum_nil, gives, promise]
          at h1 ⊢
        simp only [true_and]
        omega
      · simp only [Bool.not_not, put_party_self, put_party_other]
        unfold Acct
        simp only [hop, Bool.false_eq_true, if_false, Even]
        intro t
        have h1 := acc' t
        simp only [paid, received, paysIn, List.map_cons, List.map_nil, List.sum_cons, List.sum_nil, gives] at h1 ⊢
        rw [if_neg (fun hh => hne hh.1)]
        omega
    · intro q t hq
      have hq' : ∀ s, q ≠ (w.c.party s).address := fun s => by have := hq s; rwa [hparty] at this
      have h1 := ih.others q t hq'
      simp only [received, List.map_cons, List.map_nil, List.sum_cons, List.sum_nil, gives]
      rw [if_neg (fun hh => hq' sd hh.1.symm)]
      omega
    · intro _ t
      have h0 := ih.funds (by rw [both_side w.c sd, hp, hop]; simp) t
      rw [held_side _ sd] at h0
      simp only
      rw [held_side _ sd]
      simp only [put_party_self, put_party_other]
      have h2 := Ledger.move_get hl (by
        intro e; simp only [Prod.mk.injEq, true_and] at e; exact ih.notSelf sd e.symm) (t, w.self)
      simp only [held, hp, hop, if_true, Bool.false_eq_true, if_false, promise] at h0 ⊢
      have h3 := h2.2
      by_cases ht : t = (w.c.party sd).token
      · subst ht
        rw [if_pos rfl] at h3
        simp only [Nat.add_zero]
        omega
      · rw [if_neg (by intro e; simp only [Prod.mk.injEq] at e; exact ht e.1),
          if_neg (by intro e; simp only [Prod.mk.injEq] at e; exact ht e.1)] at h3
        rw [if_neg (Ne.symm ht)] at h0
        omega
  | fund _ sd l1 l2 ha _ hp hpay hl1 hl2 =>
    have hne := addr_ne ih sd
    have acc := ih.acct sd
    have acc' := ih.acct (!sd)
    rw [Bool.not_not] at acc'
    unfold Acct at acc acc'
    rw [hp] at acc acc'
    simp only [Bool.false_eq_true, if_false, Even] at acc acc'
    have hparty : ∀ q, ((w.c.put sd { w.c.party sd with provided := true }).party q).address =
      (w.c.party q).address := put_one_address
    refine ⟨put_terms.trans ih.terms, ih.own, ?_, ?_, ?_, ?_, ?_⟩
    · have h1 := hparty true
      have h2 := hparty false
      have h3 : ((w.c.put sd { w.c.party sd with provided := true }).party true).address ≠
        ((w.c.put sd { w.c.party sd with provided := true }).party false).address := by
        rw [h1, h2]; exact ih.distinct
      exact h3
    · intro q; simp only [hparty]; exact ih.notSelf q
    · intro q
      have key : q = sd ∨ q = !sd := by cases q <;> cases sd <;> simp
      cases hop : (w.c.party !sd).provided with
      | true =>
        rw [hop] at acc'
        simp only [if_true, Waiting] at acc'
        rcases key with rfl | rfl
        · simp only [put_party_self, put_party_other]
          unfold Acct
          simp only [if_true, hop, Swapped]
          intro t
          have h1 := acc t
          simp only [paid, received, hpay, if_true, swapMsgs, hop, Bool.and_self, List.map_cons, List.map_nil,
            List.sum_cons, List.sum_nil, gives, promise] at h1 ⊢
          rw [if_neg (c := _ = _ ∧ _) (fun hh => hne hh.1.symm)]
          simp only [true_and]
          omega
        · simp only [Bool.not_not, put_party_self, put_party_other]
          unfold Acct
          simp only [if_true, hop, Swapped]
          intro t
          have h1 := acc' t
          simp only [paid, received, hpay, if_true, swapMsgs, hop, Bool.and_self, List.map_cons, List.map_nil,
            List.sum_cons, List.sum_nil, gives, promise] at h1 ⊢
          rw [if_neg (Ne.symm hne), if_neg (c := _ = _ ∧ _) (fun hh => hne hh.1)]
          simp only [true_and]
          omega
      | false =>
        rw [hop] at acc'
        simp only [Bool.false_eq_true, if_false] at acc'
        rcases key with rfl | rfl
        · simp only [put_party_self, put_party_other]
          unfold Acct
          simp only [if_true, hop, Bool.false_eq_true, if_false, Waiting]
          intro t
          have h1 := acc t
          simp only [paid, received, hpay, if_true, swapMsgs, hop, Bool.and_false, Bool.false_eq_true, if_false,
            List.map_nil, List.sum_nil, promise] at h1 ⊢
          omega
        · simp only [Bool.not_not, put_party_self, put_party_other]
          unfold Acct
          simp only [hop, Bool.false_eq_true, if_false, Even]
          intro t
          have h1 := acc' t
          simp only [paid, received, hpay, swapMsgs, hop, Bool.and_false, Bool.false_eq_true, if_false,
            List.map_nil, List.sum_nil] at h1 ⊢
          rw [if_neg (Ne.symm hne)]
          omega
    · intro q t hq
      have hq' : ∀ s, q ≠ (w.c.party s).address := fun s => by have := hq s; rwa [hparty] at this
      have h1 := ih.others q t hq'
      simp only [received, swapMsgs]
      split
      · simp only [List.map_cons, List.map_nil, List.sum_cons, List.sum_nil, gives]
        rw [if_neg (fun hh => hq' (!sd) hh.1.symm), if_neg (fun hh => hq' sd hh.1.symm)]
        omega
      · simpa using h1
    · intro hb t
      rw [both_side _ sd] at hb
      simp only [put_party_self, put_party_other, true_and] at hb
      have hop : (w.c.party !sd).provided = false := by simpa using hb
      have h0 := ih.funds (by rw [both_side w.c sd, hp]; simp) t
      rw [held_side _ sd] at h0
      simp only
      rw [held_side _ sd]
      simp only [put_party_self, put_party_other]
      simp only [swapMsgs, hop, Bool.and_false, Bool.false_eq_true, if_false, push, Except.ok.injEq] at hl2
      subst hl2
      have h2 := Ledger.move_other (q := (t, w.self)) hl1 (by
        intro e; simp only [Prod.mk.injEq] at e; exact ih.notSelf sd e.2.symm)
      simp only [held, hp, hop, if_true, Bool.false_eq_true, if_false, promise, Prod.mk.injEq, and_true] at h0 h2 ⊢
      omega

theorem inv_run {b0 b : Block} {w0 w : World} {log : Log} (h0 : sys.init b0 w0) (hr : sys.Run w0 b0 log w b) :
    Inv (terms w0.c) w0.self w log := by
  induction hr with
  | refl => exact (inv_init h0).1
  | step hr hb hs ih => exact inv_step ih hs

end Verif.TokenSwap
