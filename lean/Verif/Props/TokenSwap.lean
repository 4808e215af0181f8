import Verif.Proofs.TokenSwap
/-!
# C42: a token swap is atomic
-/

namespace Verif.TokenSwap

open Verif.Spec.TokenSwap

variable {b0 b : Block} {w0 w w' : World} {log : Log}

/-- C42, accounts. In every state of every history: while the swap is open, a party that has provided its
promise has paid exactly that more than it got back, and the other parties nothing; once both have provided,
each party is even but for having paid its promise and received that of the other; nobody else ever receives
anything. -/
theorem C42_account (h0 : sys.init b0 w0) (hr : sys.Run w0 b0 log w b) :
    (¬ (w.c.one.provided = true ∧ w.c.two.provided = true) →
      ∀ p, p = w.c.one ∨ p = w.c.two →
        (p.provided = true → Waiting p log) ∧ (p.provided = false → Even p log)) ∧
    (w.c.one.provided = true → w.c.two.provided = true →
      Swapped w.c.one w.c.two log ∧ Swapped w.c.two w.c.one log) ∧
    (∀ q t, q ≠ w.c.one.address → q ≠ w.c.two.address → received q t log = 0) := by
  have hi := inv_run h0 hr
  have h1 := hi.acct true
  have h2 := hi.acct false
  simp only [State.party, if_true, Bool.false_eq_true, if_false, Bool.not_true, Bool.not_false, Acct] at h1 h2
  refine ⟨?_, ?_, ?_⟩
  · intro hb p hp
    rcases hp with rfl | rfl
    · constructor
      · intro hp
        rw [hp, if_pos rfl, if_neg (fun h => hb ⟨hp, h⟩)] at h1
        exact h1
      · intro hp
        rw [hp, if_neg (by simp)] at h1
        exact h1
    · constructor
      · intro hp
        rw [hp, if_pos rfl, if_neg (fun h => hb ⟨h, hp⟩)] at h2
        exact h2
      · intro hp
        rw [hp, if_neg (by simp)] at h2
        exact h2
  · intro e1 e2
    rw [e1, e2, if_pos rfl, if_pos rfl] at h1
    rw [e1, e2, if_pos rfl, if_pos rfl] at h2
    exact ⟨h1, h2⟩
  · intro q t n1 n2
    exact hi.others q t (fun sd => by cases sd <;> assumption)

/-- C42: the terms of the swap never change. -/
theorem C42_terms (h0 : sys.init b0 w0) (hr : sys.Run w0 b0 log w b) : terms w.c = terms w0.c :=
  (inv_run h0 hr).terms

/-- C42, withdrawals. In every state of every history, a party that has provided while the other has not can
withdraw, receives exactly its promise back, and can then provide again. (`hroom`: its balance with the
promise does not exceed 128 bits.) -/
theorem C42_withdraw (h0 : sys.init b0 w0) (hr : sys.Run w0 b0 log w b) (sd : Bool)
    (hp : (w.c.party sd).provided = true) (ho : (w.c.party !sd).provided = false)
    (hroom : getD0 w.ledger ((w.c.party sd).token, (w.c.party sd).address) + (w.c.party sd).amount < U128)
    (b' : Block) :
    ∃ w', sys.step w b' (.withdraw (w.c.party sd).address) =
        .ok (w', [⟨(w.c.party sd).address, (w.c.party sd).token, (w.c.party sd).amount⟩]) ∧
      getD0 w'.ledger ((w.c.party sd).token, (w.c.party sd).address) =
        getD0 w.ledger ((w.c.party sd).token, (w.c.party sd).address) + (w.c.party sd).amount ∧
      w'.c = w.c.put sd { w.c.party sd with provided := false } := by
  have hi := inv_run h0 hr
  have hne := addr_ne hi sd
  have hns := hi.notSelf sd
  have hf := hi.funds (by rw [both_side w.c sd, hp, ho]; simp) (w.c.party sd).token
  rw [held_side _ sd] at hf
  simp only [held, hp, ho, if_true, Bool.false_eq_true, if_false, promise, Nat.add_zero] at hf
  have hk : ((w.c.party sd).token, w.self) ≠ ((w.c.party sd).token, (w.c.party sd).address) := by
    intro e; simp only [Prod.mk.injEq, true_and] at e; exact hns e.symm
  obtain ⟨l', hl⟩ := move_live hk hf hroom
  have hside : side w.c (w.c.party sd).address = .ok sd := by
    unfold side
    cases sd with
    | true => exact if_pos rfl
    | false =>
      rw [if_neg (show ¬ (w.c.party false).address = w.c.one.address from Ne.symm hi.distinct)]
      exact if_pos rfl
  have hw : withdraw w.c (w.c.party sd).address = .ok (w.c.put sd { w.c.party sd with provided := false },
      [⟨(w.c.party sd).address, (w.c.party sd).token, (w.c.party sd).amount⟩]) := by
    unfold withdraw
    rw [hside, ok_bind]
    simp only [hp, ho, require, Bool.not_false, if_true, ok_bind]
  refine ⟨{ w with c := w.c.put sd { w.c.party sd with provided := false }, ledger := l' }, ?_, ?_, rfl⟩
  · show step w b' _ = _
    unfold step
    simp only [Call.sender, hns, require, ne_eq, not_false_eq_true, decide_true, if_true, ok_bind, hw, push, hl]
  · have := (Ledger.move_get hl hk ((w.c.party sd).token, (w.c.party sd).address)).2
    rw [if_neg (Ne.symm hk), if_pos rfl] at this
    exact this

/-- C42: nothing is paid twice. Once both have provided, every message to the contract fails, at every later
time. -/
theorem C42_final (hb : w.c.one.provided = true ∧ w.c.two.provided = true) (b' : Block) (call : Call)
    (hc : ∀ t a c n, call ≠ .transfer t a c n) (r : World × List Pay) : sys.step w b' call ≠ .ok r := by
  intro h
  obtain ⟨w', o⟩ := r
  obtain ⟨_, he⟩ := step_effect h
  have hall : ∀ sd, (w.c.party sd).provided = true := by intro sd; cases sd; exact hb.2; exact hb.1
  cases he with
  | fund _ sd _ _ _ _ hp => rw [hall sd] at hp; cases hp
  | withdraw _ sd _ _ _ ho => rw [hall] at ho; cases ho
  | transfer t a c n => exact hc t a c n rfl

theorem done_stays {w1 w2 : World} {b1 b2 : Block} (hb : w1.c.one.provided = true ∧ w1.c.two.provided = true)
    (hr : sys.Run w1 b1 log w2 b2) : w2.c = w1.c := by
  induction hr with
  | refl => rfl
  | step hr hb' hs ih =>
    rename_i s' s'' bb lg e c o
    rw [← ih]
    obtain ⟨_, he⟩ := step_effect hs
    have hall : ∀ sd, (s'.c.party sd).provided = true := by
      intro sd; rw [ih]; cases sd; exact hb.2; exact hb.1
    cases he with
    | fund _ sd _ _ _ _ hp => rw [hall sd] at hp; cases hp
    | withdraw _ sd _ _ _ ho => rw [hall] at ho; cases ho
    | transfer t a c n => rfl

/-- C42: a completed swap stays completed and never pays anything again. -/
theorem C42_once {w1 w2 : World} {b1 b2 : Block} (hb : w1.c.one.provided = true ∧ w1.c.two.provided = true)
    (hr : sys.Run w1 b1 log w2 b2) :
    (w2.c.one.provided = true ∧ w2.c.two.provided = true) ∧ ∀ e ∈ log, e.out = [] := by
  refine ⟨by rw [done_stays hb hr]; exact hb, ?_⟩
  induction hr with
  | refl => intro e he; cases he
  | step hr hb' hs ih =>
    rename_i s' s'' bb lg e c o
    intro x hx
    rcases List.mem_cons.1 hx with rfl | hx
    · have h := done_stays hb hr
      obtain ⟨_, he⟩ := step_effect hs
      have hall : ∀ sd, (s'.c.party sd).provided = true := by
        intro sd; rw [h]; cases sd; exact hb.2; exact hb.1
      cases he with
      | fund _ sd _ _ _ _ hp => rw [hall sd] at hp; cases hp
      | withdraw _ sd _ _ _ ho => rw [hall] at ho; cases ho
      | transfer t a c n => rfl
    · exact ih x hx

/-- C42: only the parties can pay in or withdraw, and only the exact promise is accepted. -/
theorem C42_exact {b' : Block} {call : Call} {o : List Pay} (hs : sys.step w b' call = .ok (w', o))
    (hc : ∀ t a c n, call ≠ .transfer t a c n) :
    (∃ sd, call.sender = (w.c.party sd).address ∧ (∀ x, call ≠ .withdraw x) ∧
      ∀ t, paysIn call.sender t call = promise (w.c.party sd) t) ∨
    (∃ sd, call = .withdraw (w.c.party sd).address) := by
  obtain ⟨_, he⟩ := step_effect hs
  cases he with
  | fund _ sd _ _ ha hw hp hpay =>
    refine .inl ⟨sd, ha, hw, ?_⟩
    · intro t
      rw [hpay, if_pos ha]
  | withdraw a sd _ ha => exact .inr ⟨sd, by rw [ha]⟩
  | transfer t a c n => exact absurd rfl (hc t a c n)

theorem amount_pos (h0 : sys.init b0 w0) (hr : sys.Run w0 b0 log w b) (sd : Bool) : (w.c.party sd).amount ≠ 0 := by
  have ht := (inv_run h0 hr).terms
  obtain ⟨⟨a1, t1, n1, a2, t2, n2, hi⟩, _⟩ := h0
  unfold instantiate at hi
  obtain ⟨p1, k1, hi⟩ := (bind_ok _ _ _).mp hi
  obtain ⟨p2, k2, hi⟩ := (bind_ok _ _ _).mp hi
  obtain ⟨_, _, hi⟩ := (bind_ok _ _ _).mp hi
  unfold checked at k1 k2
  obtain ⟨_, e1, k1⟩ := (bind_ok _ _ _).mp k1
  obtain ⟨_, e2, k2⟩ := (bind_ok _ _ _).mp k2
  have e1 := (require_ok _ _ _).mp e1
  have e2 := (require_ok _ _ _).mp e2
  simp only [decide_eq_true_eq] at e1 e2
  simp only [Except.ok.injEq] at k1 k2 hi
  rw [← hi, ← k1, ← k2] at ht
  simp only [terms, Prod.mk.injEq] at ht
  obtain ⟨⟨_, _, h1⟩, _, _, h2⟩ := ht
  cases sd
  · show w.c.two.amount ≠ 0
    rw [h2]; exact e2
  · show w.c.one.amount ≠ 0
    rw [h1]; exact e1

/-- The message with which a party provides its promise. -/
def provide (p : Party) : Call :=
  match p.token with
  | .native d => .fund p.address [(d, p.amount)]
  | .cw20 t => .send t p.address p.amount

/-- C42, completion. In every state of every history in which one party has provided and the other has not,
the other can provide: if it has the promised amount the transaction succeeds and pays each the promise of the
other. (`hsupply`: no two balances exceed 128 bits together, as when the total supply does not.) -/
theorem C42_completes (h0 : sys.init b0 w0) (hr : sys.Run w0 b0 log w b) (sd : Bool)
    (hp : (w.c.party sd).provided = false) (ho : (w.c.party !sd).provided = true)
    (hbal : (w.c.party sd).amount ≤ getD0 w.ledger ((w.c.party sd).token, (w.c.party sd).address))
    (hsupply : ∀ t a c, a ≠ c → getD0 w.ledger (t, a) + getD0 w.ledger (t, c) < U128) (b' : Block) :
    ∃ w', sys.step w b' (provide (w.c.party sd)) = .ok (w',
        [⟨(w.c.party !sd).address, (w.c.party sd).token, (w.c.party sd).amount⟩,
          ⟨(w.c.party sd).address, (w.c.party !sd).token, (w.c.party !sd).amount⟩]) ∧
      w'.c.one.provided = true ∧ w'.c.two.provided = true := by
  have hi := inv_run h0 hr
  have hpos := amount_pos h0 hr sd
  have hne := addr_ne hi sd
  have hns := hi.notSelf sd
  have hno := hi.notSelf (!sd)
  have hf := hi.funds (by rw [both_side w.c sd, hp, ho]; simp) (w.c.party !sd).token
  rw [held_side _ sd] at hf
  simp only [held, hp, ho, if_true, Bool.false_eq_true, if_false, promise, Nat.zero_add] at hf
  have k1 : ((w.c.party sd).token, (w.c.party sd).address) ≠ ((w.c.party sd).token, w.self) := by
    intro e; simp only [Prod.mk.injEq, true_and] at e; exact hns e
  have k2 : ((w.c.party sd).token, w.self) ≠ ((w.c.party sd).token, (w.c.party !sd).address) := by
    intro e; simp only [Prod.mk.injEq, true_and] at e; exact hno e.symm
  have k3 : ((w.c.party !sd).token, w.self) ≠ ((w.c.party !sd).token, (w.c.party sd).address) := by
    intro e; simp only [Prod.mk.injEq, true_and] at e; exact hns e.symm
  have k4 : ((w.c.party sd).token, (w.c.party !sd).address) ≠ ((w.c.party sd).token, (w.c.party sd).address) := by
    intro e; simp only [Prod.mk.injEq, true_and] at e; exact hne e.symm
  have s1 := hsupply (w.c.party sd).token _ _ hns
  have s2 := hsupply (w.c.party sd).token _ _ hne
  have s3 := hsupply (w.c.party !sd).token _ _ hns
  obtain ⟨l1, hl1⟩ := move_live (l := w.ledger) (n := (w.c.party sd).amount) k1 hbal (by omega)
  have m1 := fun q => (Ledger.move_get hl1 k1 q).2
  have a1 := m1 ((w.c.party sd).token, w.self)
  have a2 := m1 ((w.c.party sd).token, (w.c.party !sd).address)
  rw [if_neg (Ne.symm k1), if_pos rfl] at a1
  rw [if_neg k4, if_neg (Ne.symm k2)] at a2
  obtain ⟨l2, hl2⟩ := move_live (l := l1) (n := (w.c.party sd).amount) k2 (by omega) (by omega)
  have m2 := fun q => (Ledger.move_get hl2 k2 q).2
  have b1 : getD0 l2 ((w.c.party !sd).token, w.self) = getD0 w.ledger ((w.c.party !sd).token, w.self) := by
    rw [m2]
    by_cases ht : (w.c.party !sd).token = (w.c.party sd).token
    · rw [ht, if_pos rfl, a1]; omega
    · have ne : ∀ x y : Addr, ((w.c.party !sd).token, x) ≠ ((w.c.party sd).token, y) := by
        intro x y e; simp only [Prod.mk.injEq] at e; exact ht e.1
      rw [if_neg (ne _ _), if_neg (ne _ _), m1, if_neg (ne _ _), if_neg (ne _ _)]
  have b2 : getD0 l2 ((w.c.party !sd).token, (w.c.party sd).address) ≤
      getD0 w.ledger ((w.c.party !sd).token, (w.c.party sd).address) := by
    rw [m2, if_neg (by intro e; simp only [Prod.mk.injEq] at e; exact hns e.2),
      if_neg (by intro e; simp only [Prod.mk.injEq] at e; exact hne e.2), m1]
    split
    · rename_i e; rw [← e]; exact Nat.sub_le _ _
    · rw [if_neg (by intro e; simp only [Prod.mk.injEq] at e; exact hns e.2)]
      exact Nat.le_refl _
  obtain ⟨l3, hl3⟩ := move_live (l := l2) (n := (w.c.party !sd).amount) k3 (by omega) (by omega)
  have hside : side w.c (w.c.party sd).address = .ok sd := by
    unfold side
    cases sd with
    | true => exact if_pos rfl
    | false =>
      rw [if_neg (show ¬ (w.c.party false).address = w.c.one.address from Ne.symm hi.distinct)]
      exact if_pos rfl
  have hd : doFund w.c sd (w.c.party sd).amount = .ok (w.c.put sd { w.c.party sd with provided := true },
      [⟨(w.c.party !sd).address, (w.c.party sd).token, (w.c.party sd).amount⟩,
        ⟨(w.c.party sd).address, (w.c.party !sd).token, (w.c.party !sd).amount⟩]) := by
    unfold doFund
    simp only [hp, ho, require, Bool.not_false, decide_true, if_true, ok_bind, swapMsgs, Bool.and_self]
  refine ⟨{ w with c := w.c.put sd { w.c.party sd with provided := true }, ledger := l3 }, ?_, ?_⟩
  · show step w b' _ = _
    unfold step provide
    cases ht : (w.c.party sd).token with
    | native d =>
      rw [ht] at hl1 hl2 hd
      have hfund : fund w.c (w.c.party sd).address [(d, (w.c.party sd).amount)] =
          doFund w.c sd (w.c.party sd).amount := by
        unfold fund
        rw [hside, ok_bind, ht]
        simp only [nativeDenom, ok_bind, mustPay]
        rw [if_pos ⟨trivial, hpos⟩, ok_bind]
      simp only [Call.sender, hns, require, ne_eq, not_false_eq_true, decide_true, if_true, ok_bind, pull, hl1, hfund, hd,
        push, hl2, hl3]
    | cw20 t =>
      rw [ht] at hl1 hl2 hd
      have hrec : receive w.c t (w.c.party sd).address (w.c.party sd).amount =
          doFund w.c sd (w.c.party sd).amount := by
        unfold receive
        rw [hside, ok_bind, ht]
        simp only [require, decide_true, if_true, ok_bind]
      simp only [Call.sender, hns, require, ne_eq, not_false_eq_true, decide_true, if_true, ok_bind, hl1, hrec, hd,
        push, hl2, hl3]
  · simp only
    rw [both_side _ sd]
    simp only [put_party_self, put_party_other]
    exact ⟨trivial, ho⟩

/-! ## A concrete history -/

def exW : World :=
  { c := { one := ⟨1, .native 7, 100, false⟩, two := ⟨2, .cw20 30, 40, false⟩ }
    self := 99, ledger := [((.native 7, 1), 150), ((.cw20 30, 2), 50)] }

theorem exW_init : sys.init ⟨1, 0⟩ exW :=
  ⟨⟨1, .native 7, 100, 2, .cw20 30, 40, by decide +kernel⟩, by decide, by decide⟩

/-- The first party pays, withdraws, pays again; then the second pays and both are paid. -/
theorem exW_run : ∃ w b log, sys.Run exW ⟨1, 0⟩ log w b ∧
    (decide (w.c.one.provided = true ∧ w.c.two.provided = true ∧ log.length = 4 ∧
      getD0 w.ledger (.native 7, 2) = 100 ∧ getD0 w.ledger (.cw20 30, 1) = 40 ∧
      getD0 w.ledger (.native 7, 99) = 0 ∧ paid 1 (.native 7) log = 200 ∧ received 1 (.native 7) log = 100)) = true :=
  Sys.check_run (M := sys) (s := exW) (b := ⟨1, 0⟩)
    (cs := [(⟨2, 0⟩, .fund 1 [(7, 100)]), (⟨3, 0⟩, .withdraw 1), (⟨4, 0⟩, .fund 1 [(7, 100)]), (⟨5, 0⟩, .send 30 2 40)])
    (p := fun w _ log => decide (w.c.one.provided = true ∧ w.c.two.provided = true ∧ log.length = 4 ∧
      getD0 w.ledger (.native 7, 2) = 100 ∧ getD0 w.ledger (.cw20 30, 1) = 40 ∧
      getD0 w.ledger (.native 7, 99) = 0 ∧ paid 1 (.native 7) log = 200 ∧ received 1 (.native 7) log = 100))
    (by decide +kernel)

/-- A state in which the hypotheses of `C42_withdraw` and of `C42_completes` hold. -/
theorem exW_open : ∃ w b log, sys.Run exW ⟨1, 0⟩ log w b ∧
    (decide ((w.c.party true).provided = true ∧ (w.c.party false).provided = false ∧
      40 ≤ getD0 w.ledger (.cw20 30, 2))) = true :=
  Sys.check_run (M := sys) (s := exW) (b := ⟨1, 0⟩) (cs := [(⟨2, 0⟩, .fund 1 [(7, 100)])])
    (p := fun w _ _ => decide ((w.c.party true).provided = true ∧ (w.c.party false).provided = false ∧
      40 ≤ getD0 w.ledger (.cw20 30, 2)))
    (by decide +kernel)

end Verif.TokenSwap
