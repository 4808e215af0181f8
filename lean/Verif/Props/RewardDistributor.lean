import Verif.Spec.RewardDistributor
import Mathlib.Tactic.Ring
import Mathlib.Tactic.ByContra
/-!
# C35: cw20-stake-reward-distributor

The part of C35 that says that pending rewards are not lost by a configuration update is false of the
code: `C35_config_drops`, `C35_config_witness`.
-/

namespace Verif.RewardDistributor
open Verif.Spec.RewardDistributor

variable {w w' w0 : World} {b b' b0 : Block} {log : List (Ev World Env Call (Option Pay))}

theorem distributionMsg_inv {s : State} {bal : Nat} {p : Pay} (h : distributionMsg s b bal = .ok p) :
    s.lastPayment < b.height ∧ s.rate * (b.height - s.lastPayment) < U128 ∧
      min bal (s.rate * (b.height - s.lastPayment)) ≠ 0 ∧
      p = .send s.token s.staking (min bal (s.rate * (b.height - s.lastPayment))) := by
  simp only [distributionMsg, bind_ok, require_ok, decide_eq_true_eq, mul128_ok, Except.ok.injEq] at h
  obtain ⟨_, h1, _, ⟨h2, rfl⟩, _, h3, rfl⟩ := h
  exact ⟨h1, h2, h3, rfl⟩

/-- What a successful call does. -/
inductive Effect (w : World) (e : Env) : Call → World → Option Pay → Prop where
  | distribute {a : Addr} {l : Ledger (Addr × Addr)} {n : Nat} (h1 : w.c.lastPayment < e.block.height)
      (hn : n = min (w.balance w.c.token) (w.c.rate * (e.block.height - w.c.lastPayment))) (h0 : n ≠ 0)
      (hs : w.c.staking ≠ w.self)
      (hl : w.ledger.move (w.c.token, w.self) (w.c.token, w.c.staking) n = .ok l) :
      Effect w e (.exec a .distribute)
        { w with c := { w.c with lastPayment := e.block.height }, ledger := l }
        (some (.send w.c.token w.c.staking n))
  | config {a s t : Addr} {r : Nat} (ho : w.c.ownership.owner = some a) :
      Effect w e (.exec a (.updateConfig s r t))
        { w with c := { w.c with lastPayment := e.block.height, staking := s, rate := r, token := t } } none
  | withdraw {a : Addr} {l : Ledger (Addr × Addr)} (ho : w.c.ownership.owner = some a) (ha : a ≠ w.self)
      (hl : w.ledger.move (w.c.token, w.self) (w.c.token, a) (w.balance w.c.token) = .ok l) :
      Effect w e (.exec a .withdraw) { w with ledger := l }
        (some (.transfer w.c.token a (w.balance w.c.token)))
  | owner {a : Addr} {x : OwnerAction} {o : Ownership} (ho : w.c.ownership.update e.block a x = .ok o) :
      Effect w e (.exec a (.updateOwnership x)) { w with c := { w.c with ownership := o } } none
  | transfer {t a c : Addr} {n : Nat} {l : Ledger (Addr × Addr)} (ha : a ≠ w.self)
      (hl : w.ledger.move (t, a) (t, c) n = .ok l) : Effect w e (.transfer t a c n) { w with ledger := l } none
  | mint {t c : Addr} {n : Nat} {l : Ledger (Addr × Addr)} (hl : w.ledger.credit (t, c) n = .ok l) :
      Effect w e (.mint t c n) { w with ledger := l } none

theorem step_effect {e : Env} {call : Call} {out : Option Pay} (h : sys.step w e call = .ok (w', out)) :
    Effect w e call w' out := by
  change step w e call = .ok (w', out) at h
  cases call with
  | exec a m =>
    simp only [step, bind_ok, require_ok, decide_eq_true_eq] at h
    obtain ⟨_, ha, ⟨c, p⟩, he, h⟩ := h
    cases m with
    | updateConfig s r t =>
      simp only [exec, execUpdateConfig, bind_ok, Ownership.assertOwner_ok, require_ok, Except.ok.injEq,
        Prod.mk.injEq] at he
      obtain ⟨_, ho, _, _, _, _, q, hq, rfl, rfl⟩ := he
      have : q = none := by
        unfold ignoreErr at hq
        split at hq
        · rename_i hd
          exact absurd (distributionMsg_inv hd).1 (Nat.lt_irrefl _)
        · cases hq
        · cases hq; rfl
      subst this
      simp only [settle, Except.ok.injEq, Prod.mk.injEq] at h
      obtain ⟨rfl, rfl⟩ := h
      exact .config ho
    | distribute =>
      simp only [exec, execDistribute, bind_ok, Except.ok.injEq, Prod.mk.injEq] at he
      obtain ⟨q, hq, rfl, rfl⟩ := he
      obtain ⟨h1, h2, h3, rfl⟩ := distributionMsg_inv hq
      simp only [settle, bind_ok, require_ok, decide_eq_true_eq, Except.ok.injEq, Prod.mk.injEq] at h
      obtain ⟨_, _, _, hs, l, hl, rfl, rfl⟩ := h
      exact .distribute h1 rfl h3 hs hl
    | withdraw =>
      simp only [exec, execWithdraw, bind_ok, Ownership.assertOwner_ok, Except.ok.injEq,
        Prod.mk.injEq] at he
      obtain ⟨_, ho, rfl, rfl⟩ := he
      simp only [settle, bind_ok, Except.ok.injEq, Prod.mk.injEq] at h
      obtain ⟨l, hl, rfl, rfl⟩ := h
      exact .withdraw ho ha hl
    | updateOwnership x =>
      simp only [exec, bind_ok, Except.ok.injEq, Prod.mk.injEq] at he
      obtain ⟨o, ho, rfl, rfl⟩ := he
      simp only [settle, Except.ok.injEq, Prod.mk.injEq] at h
      obtain ⟨rfl, rfl⟩ := h
      exact .owner ho
  | transfer t a c n =>
    simp only [step, bind_ok, require_ok, decide_eq_true_eq, Except.ok.injEq, Prod.mk.injEq] at h
    obtain ⟨_, ha, l, hl, rfl, rfl⟩ := h
    exact .transfer ha hl
  | mint t c n =>
    simp only [step, bind_ok, Except.ok.injEq, Prod.mk.injEq] at h
    obtain ⟨l, hl, rfl, rfl⟩ := h
    exact .mint hl

theorem height_run (hr : sys.Run w0 b0 log w b) : height b0.height log = b.height := by
  cases hr <;> rfl

theorem since_eq (hi : w0.c.lastPayment = b0.height) (hr : sys.Run w0 b0 log w b) :
    w.c.lastPayment = since b0.height log ∧ w.c.lastPayment ≤ b.height := by
  induction hr with
  | refl => exact ⟨hi, hi ▸ Nat.le_refl _⟩
  | step hr hb hs ih =>
    have h2 := Nat.le_trans ih.2 hb.1
    cases step_effect hs with
    | distribute => exact ⟨rfl, Nat.le_refl _⟩
    | config => exact ⟨rfl, Nat.le_refl _⟩
    | withdraw => exact ⟨ih.1, h2⟩
    | owner => exact ⟨ih.1, h2⟩
    | transfer => exact ⟨ih.1, h2⟩
    | mint => exact ⟨ih.1, h2⟩

theorem init_last (hi : sys.init b0 w0) : w0.c.lastPayment = b0.height := by
  obtain ⟨e, o, s, r, t, rfl, h⟩ := hi
  simp only [instantiate, bind_ok, require_ok, Except.ok.injEq] at h
  obtain ⟨_, _, _, _, h⟩ := h
  rw [← h]

/-- C35. A distribution sends the staking contract exactly the smaller of the contract's balance and the
rate times the blocks since the last distribution, configuration update or the instantiation; anybody can
call it, at most once for a block. -/
theorem C35_amount {e : Env} {a : Addr} {out : Option Pay} (hi : sys.init b0 w0) (hr : sys.Run w0 b0 log w b)
    (hs : sys.step w e (.exec a .distribute) = .ok (w', out)) :
    ∃ n, n = min (coins w w.c.token w.self) (w.c.rate * (e.block.height - since b0.height log)) ∧ n ≠ 0 ∧
      since b0.height log < e.block.height ∧
      coins w' w.c.token w.self + n = coins w w.c.token w.self ∧
      coins w' w.c.token w.c.staking = coins w w.c.token w.c.staking + n ∧
      (∀ t q, (t, q) ≠ (w.c.token, w.self) → (t, q) ≠ (w.c.token, w.c.staking) → coins w' t q = coins w t q) := by
  have hsi := (since_eq (init_last hi) hr).1
  cases step_effect hs with
  | distribute h1 hn h0 hst hl =>
    rename_i l n
    have hne : (w.c.token, w.self) ≠ (w.c.token, w.c.staking) := by
      intro h; exact hst (Prod.mk.inj h).2.symm
    have hm := fun q => Ledger.move_get hl hne q
    rw [← hsi]
    refine ⟨n, hn, h0, h1, ?_, ?_, ?_⟩
    · have := hm (w.c.token, w.self)
      unfold coins; rw [this.2, if_pos rfl]; omega
    · unfold coins; rw [(hm (w.c.token, w.c.staking)).2, if_neg (Ne.symm hne), if_pos rfl]
    · intro t q h2 h3
      unfold coins; rw [(hm (t, q)).2, if_neg h2, if_neg h3]

/-- C35. No block is paid for twice: after a distribution every further one in the same block fails,
whatever happens in between. -/
theorem C35_once {e e2 : Env} {a a2 : Addr} {out : Option Pay} {w2 : World} {l : List (Ev World Env Call (Option Pay))}
    (hs : sys.step w e (.exec a .distribute) = .ok (w', out)) (hr : sys.Run w' e.block l w2 b')
    (he : e2.block.height = e.block.height) :
    ∀ r, sys.step w2 e2 (.exec a2 .distribute) ≠ .ok r := by
  rintro ⟨w3, o⟩ h3
  have key : ∀ {l w2 b'}, sys.Run w' e.block l w2 b' → e.block.height ≤ w2.c.lastPayment ∧ e.block.height ≤ b'.height := by
    intro l w2 b' hr
    induction hr with
    | refl =>
      cases step_effect hs with
      | distribute => exact ⟨Nat.le_refl _, Nat.le_refl _⟩
    | step hr hb hs ih =>
      have h2 := Nat.le_trans ih.2 hb.1
      cases step_effect hs with
      | distribute => exact ⟨h2, h2⟩
      | config => exact ⟨h2, h2⟩
      | withdraw => exact ⟨ih.1, h2⟩
      | owner => exact ⟨ih.1, h2⟩
      | transfer => exact ⟨ih.1, h2⟩
      | mint => exact ⟨ih.1, h2⟩
  have h1 := (key hr).1
  cases step_effect h3 with
  | distribute h4 => omega

/-- C35 (partial: not the sentence about configuration updates). Everything ever distributed, plus what a
distribution in the current block could add, is at most the rate in force times the blocks elapsed, summed
over the whole history. -/
theorem C35_rate_partial (hi : sys.init b0 w0) (hr : sys.Run w0 b0 log w b) :
    distributed log + w.c.rate * (b.height - since b0.height log) ≤ accrual b0.height log := by
  have hl := init_last hi
  induction hr with
  | refl => simp [distributed, since, accrual]
  | step hr hb hs ih =>
    rename_i w1 w2 b1 log e call out
    obtain ⟨h1, h2⟩ := since_eq hl hr
    have hh := height_run hr
    have hb1 : b1.height ≤ e.block.height := hb.1
    have key : distributed log + w1.c.rate * (e.block.height - since b0.height log) ≤
        accrual b0.height log + w1.c.rate * (e.block.height - height b0.height log) := by
      rw [hh]
      have : e.block.height - since b0.height log =
        (b1.height - since b0.height log) + (e.block.height - b1.height) := by omega
      rw [this, Nat.mul_add]
      omega
    cases step_effect hs with
    | distribute h3 hn h0 hst hl =>
      rename_i a l n
      have hne : (w1.c.token, w1.self) ≠ (w1.c.token, w1.c.staking) := by
        intro h; exact hst (Prod.mk.inj h).2.symm
      have hm := Ledger.move_get hl hne (w1.c.token, w1.self)
      simp only [distributed, since, accrual, coins, sys, Nat.sub_self, Nat.mul_zero, Nat.add_zero]
      rw [hm.2, if_pos rfl, ← h1] at *
      omega
    | config =>
      simp only [distributed, since, accrual, sys, Nat.sub_self, Nat.mul_zero, Nat.add_zero]
      omega
    | withdraw => simp only [distributed, since, accrual, sys, Nat.add_zero]; exact key
    | owner => simp only [distributed, since, accrual, sys, Nat.add_zero]; exact key
    | transfer => simp only [distributed, since, accrual, sys, Nat.add_zero]; exact key
    | mint => simp only [distributed, since, accrual, sys, Nat.add_zero]; exact key

/-- C35. Between two points of a history without configuration update, at most the rate times the blocks
since the last payment before the first point is distributed. -/
theorem C35_between {l : List (Ev World Env Call (Option Pay))} (hi : sys.init b0 w0) (hr : sys.Run w0 b0 log w b)
    (hr' : sys.Run w b l w' b') (hn : ∀ e ∈ l, ∀ a s r t, e.call ≠ .exec a (.updateConfig s r t)) :
    distributed l ≤ w.c.rate * (b'.height - since b0.height log) := by
  have hl := init_last hi
  have key : distributed l + w.c.rate * (b'.height - w'.c.lastPayment) ≤
      w.c.rate * (b'.height - w.c.lastPayment) ∧ w'.c.rate = w.c.rate ∧ w'.c.lastPayment ≤ b'.height ∧
      w.c.lastPayment ≤ w'.c.lastPayment := by
    induction hr' with
    | refl => exact ⟨by simp [distributed], rfl, (since_eq hl hr).2, Nat.le_refl _⟩
    | step hr2 hb hs ih =>
      rename_i w1 w2 b1 log e call out
      obtain ⟨i1, i2, i3, i4⟩ := ih (fun e he => hn e (List.mem_cons_of_mem _ he))
      have hb1 : b1.height ≤ e.block.height := hb.1
      have i5 : distributed log + w.c.rate * (e.block.height - w1.c.lastPayment) ≤
          w.c.rate * (e.block.height - w.c.lastPayment) := by
        have e1 : e.block.height - w1.c.lastPayment = (b1.height - w1.c.lastPayment) + (e.block.height - b1.height) := by
          omega
        have e2 : e.block.height - w.c.lastPayment = (b1.height - w.c.lastPayment) + (e.block.height - b1.height) := by
          omega
        rw [e1, e2, Nat.mul_add, Nat.mul_add]
        omega
      have i6 : w1.c.lastPayment ≤ e.block.height := by omega
      cases step_effect hs with
      | distribute h3 hn2 h0 hst hl =>
        rename_i a l n
        have hne : (w1.c.token, w1.self) ≠ (w1.c.token, w1.c.staking) := by
          intro h; exact hst (Prod.mk.inj h).2.symm
        have hm := Ledger.move_get hl hne (w1.c.token, w1.self)
        refine ⟨?_, i2, Nat.le_refl _, by simp only; omega⟩
        simp only [distributed, coins, sys, Nat.sub_self, Nat.mul_zero, Nat.add_zero]
        rw [hm.2, if_pos rfl]
        rw [i2] at hn2
        omega
      | config => exact absurd rfl (hn _ (List.mem_cons_self) _ _ _ _)
      | withdraw => exact ⟨by simpa [distributed, sys] using i5, i2, i6, i4⟩
      | owner => exact ⟨by simpa [distributed, sys] using i5, i2, i6, i4⟩
      | transfer => exact ⟨by simpa [distributed, sys] using i5, i2, i6, i4⟩
      | mint => exact ⟨by simpa [distributed, sys] using i5, i2, i6, i4⟩
  rw [← (since_eq hl hr).1]
  omega

/-- C35. When something is due, the staking contract accepts and the amount is within range, a distribution
succeeds, for anybody. -/
theorem C35_live {e : Env} {a : Addr} (hi : sys.init b0 w0) (hr : sys.Run w0 b0 log w b)
    (ha : a ≠ w.self) (hacc : e.accepts = true) (hs : w.c.staking ≠ w.self)
    (hh : since b0.height log < e.block.height) (hrt : w.c.rate ≠ 0) (hc : coins w w.c.token w.self ≠ 0)
    (hfit : w.c.rate * (e.block.height - since b0.height log) < U128) (ht : Verif.total w.ledger < U128) :
    ∃ r, sys.step w e (.exec a .distribute) = .ok r := by
  have hsi := (since_eq (init_last hi) hr).1
  rw [← hsi] at hh hfit
  have hpos : w.c.rate * (e.block.height - w.c.lastPayment) ≠ 0 :=
    Nat.mul_ne_zero hrt (by omega)
  have hmin : min (w.balance w.c.token) (w.c.rate * (e.block.height - w.c.lastPayment)) ≠ 0 := by
    have : w.balance w.c.token ≠ 0 := hc
    omega
  have hd : distributionMsg w.c e.block (w.balance w.c.token) = .ok (.send w.c.token w.c.staking
      (min (w.balance w.c.token) (w.c.rate * (e.block.height - w.c.lastPayment)))) := by
    have hm : mul128 w.c.rate (e.block.height - w.c.lastPayment) =
        .ok (w.c.rate * (e.block.height - w.c.lastPayment)) := by simp [mul128, hfit]
    simp only [distributionMsg, require, hh, decide_true, if_true, ok_bind, hm, ne_eq, hmin, not_false_eq_true]
  have hle : min (w.balance w.c.token) (w.c.rate * (e.block.height - w.c.lastPayment)) ≤
      getD0 w.ledger (w.c.token, w.self) := Nat.min_le_left _ _
  obtain ⟨l, hl⟩ := Ledger.move_total_ok (b := (w.c.token, w.c.staking)) hle ht
  refine ⟨({ w with c := { w.c with lastPayment := e.block.height }, ledger := l }, some (.send w.c.token w.c.staking
    (min (w.balance w.c.token) (w.c.rate * (e.block.height - w.c.lastPayment))))), ?_⟩
  show step w e (.exec a .distribute) = _
  simp only [step, require, ha, ne_eq, not_false_eq_true, decide_true, if_true, ok_bind, exec, execDistribute, hd,
    settle, hacc, hs, hl]

/-- C35. Only the owner withdraws, and gets the whole balance; only the owner changes the configuration. -/
theorem C35_admin {e : Env} {call : Call} {out : Option Pay} (hs : sys.step w e call = .ok (w', out)) :
    (∀ a, call = .exec a .withdraw → w.c.ownership.owner = some a ∧ coins w' w.c.token w.self = 0 ∧
      coins w' w.c.token a = coins w w.c.token a + coins w w.c.token w.self) ∧
    ((w'.c.staking, w'.c.rate, w'.c.token) ≠ (w.c.staking, w.c.rate, w.c.token) →
      ∃ a s r t, call = .exec a (.updateConfig s r t) ∧ w.c.ownership.owner = some a ∧
        w'.c.staking = s ∧ w'.c.rate = r ∧ w'.c.token = t) ∧
    (∀ t, coins w' t w.self < coins w t w.self →
      t = w.c.token ∧ ∃ a, call = .exec a .distribute ∨ call = .exec a .withdraw) := by
  cases step_effect hs with
  | distribute h1 hn h0 hst hl =>
    rename_i a l n
    have hne : (w.c.token, w.self) ≠ (w.c.token, w.c.staking) := by
      intro h; exact hst (Prod.mk.inj h).2.symm
    refine ⟨fun _ h => (by cases h), fun h => absurd rfl h, fun t ht => ⟨?_, _, Or.inl rfl⟩⟩
    by_contra hc
    have hm := Ledger.move_other (q := (t, w.self)) hl (by intro h; exact hc (Prod.mk.inj h).1)
    unfold coins at ht
    simp only at ht
    rw [hm] at ht
    omega
  | config ho => exact ⟨fun _ h => (by cases h), fun _ => ⟨_, _, _, _, rfl, ho, rfl, rfl, rfl⟩,
      fun t ht => absurd ht (Nat.lt_irrefl _)⟩
  | withdraw ho ha hl =>
    rename_i a l
    have hne : (w.c.token, w.self) ≠ (w.c.token, a) := by
      intro h; exact ha (Prod.mk.inj h).2.symm
    refine ⟨fun q h => ?_, fun h => absurd rfl h, fun t ht => ⟨?_, _, Or.inr rfl⟩⟩
    · cases h
      have h1 := Ledger.move_get hl hne (w.c.token, w.self)
      have h2 := Ledger.move_get hl hne (w.c.token, a)
      refine ⟨ho, ?_, ?_⟩
      · unfold coins; rw [h1.2, if_pos rfl]; unfold World.balance; omega
      · unfold coins; rw [h2.2, if_neg (Ne.symm hne), if_pos rfl]; rfl
    · by_contra hc
      have hm := Ledger.move_other (q := (t, w.self)) hl (by intro h; exact hc (Prod.mk.inj h).1)
      unfold coins at ht
      simp only at ht
      rw [hm] at ht
      omega
  | owner => exact ⟨fun _ h => (by cases h), fun h => absurd rfl h, fun t ht => absurd ht (Nat.lt_irrefl _)⟩
  | transfer ha hl =>
    refine ⟨fun _ h => (by cases h), fun h => absurd rfl h, fun t ht => ?_⟩
    have hm := Ledger.move_other (q := (t, w.self)) hl (by intro h; exact ha (Prod.mk.inj h).2.symm)
    unfold coins at ht
    simp only at ht
    rw [hm] at ht
    omega
  | mint hl =>
    refine ⟨fun _ h => (by cases h), fun h => absurd rfl h, fun t ht => ?_⟩
    have hm := Ledger.credit_get hl (t, w.self)
    unfold coins at ht
    simp only at ht
    rw [hm] at ht
    split at ht
    · rename_i he; rw [he] at ht; omega
    · omega

/-- C35, negation of its last sentence. Every configuration update drops the pending rewards: it sends
nothing, although it tries to, and a distribution in the same block fails afterwards. -/
theorem C35_config_drops {e e2 : Env} {a a2 s t : Addr} {r : Nat} {out : Option Pay}
    (hs : sys.step w e (.exec a (.updateConfig s r t)) = .ok (w', out)) (he : e2.block.height = e.block.height) :
    out = none ∧ (∀ t q, coins w' t q = coins w t q) ∧
      ∀ x, sys.step w' e2 (.exec a2 .distribute) ≠ .ok x := by
  cases step_effect hs with
  | config ho =>
    refine ⟨rfl, fun _ _ => rfl, ?_⟩
    rintro ⟨w3, o⟩ h3
    cases step_effect h3 with
    | distribute h4 => simp only at h4; omega

/-! ## A concrete history -/

def exW : World :=
  { c := { ownership := { owner := some 1 }, staking := 20, rate := 5, token := 30, lastPayment := 100 }
    self := 99, ledger := [((30, 99), 60)] }

theorem exW_init : sys.init ⟨100, 0⟩ exW :=
  ⟨{ block := ⟨100, 0⟩ }, 1, 20, 5, 30, rfl, by decide +kernel⟩

/-- Ten blocks at 5, then two of the three blocks that were due are cut off by the balance. -/
theorem exW_play :
    (match sys.play exW ⟨100, 0⟩ [({ block := ⟨110, 0⟩ }, .exec 7 .distribute), ({ block := ⟨113, 0⟩ }, .exec 8 .distribute)] with
      | some (w, _, log) => decide (coins w 30 20 = 60 ∧ distributed log = 60 ∧ accrual 100 log = 65 ∧
          since 100 log = 113)
      | none => false) = true := by decide +kernel

/-- C35, negation of its last sentence on a concrete history: an update to the configuration already in
force, after ten blocks in which 50 tokens became due, forfeits them. -/
theorem C35_config_witness :
    ∃ w b log, sys.Run exW ⟨100, 0⟩ log w b ∧ distributed log = 0 ∧ accrual 100 log = 50 ∧
      coins w 30 99 = 60 ∧ w.c.rate = 5 ∧ w.c.staking = 20 ∧ w.c.token = 30 ∧
      ∀ e : Env, e.block = b → ∀ a r, sys.step w e (.exec a .distribute) ≠ .ok r := by
  have h : (match sys.play exW ⟨100, 0⟩ [({ block := ⟨110, 0⟩ }, .exec 1 (.updateConfig 20 5 30))] with
      | some (w, b, log) => decide (b.height ≤ w.c.lastPayment ∧ distributed log = 0 ∧ accrual 100 log = 50 ∧
          coins w 30 99 = 60 ∧ w.c.rate = 5 ∧ w.c.staking = 20 ∧ w.c.token = 30)
      | none => false) = true := by decide +kernel
  cases hp : sys.play exW ⟨100, 0⟩ [({ block := ⟨110, 0⟩ }, .exec 1 (.updateConfig 20 5 30))] with
  | none => rw [hp] at h; simp at h
  | some r =>
    obtain ⟨w, b, log⟩ := r
    rw [hp] at h
    simp only [decide_eq_true_eq] at h
    obtain ⟨h0, h1, h2, h3, h4, h5, h6⟩ := h
    refine ⟨w, b, log, Sys.play_run hp, h1, h2, h3, h4, h5, h6, ?_⟩
    rintro e rfl a ⟨w3, o⟩ h3
    cases step_effect h3 with
    | distribute h4 => omega

end Verif.RewardDistributor
