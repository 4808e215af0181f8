import Verif.Proofs.VestingCurve
import Verif.Proofs.StakeTracker
import Verif.Props.StakeTracker
/-!
# What each transaction of a vesting contract does
-/

namespace Verif.Vesting

open Verif.Spec.Vesting
open Verif.StakeTracker (secs totalStaked)

/-! ## The balance -/

theorem sum_filter_split (l : List (Nat × Nat)) {t x : Nat} (h : t ≤ x) :
    ((l.filter (fun p => decide (p.1 ≤ x))).map Prod.snd).sum =
      ((l.filter (fun p => decide (p.1 ≤ t))).map Prod.snd).sum +
      (((l.filter (fun p => decide (t < p.1))).filter (fun p => decide (p.1 ≤ x))).map Prod.snd).sum := by
  induction l with
  | nil => rfl
  | cons p l ih =>
    simp only [List.filter_cons]
    by_cases h1 : p.1 ≤ t
    · have h2 : p.1 ≤ x := by omega
      have h3 : ¬ t < p.1 := by omega
      simp only [h1, h2, h3, decide_true, decide_false, if_true, List.map_cons, List.sum_cons, ih]
      simp only [Bool.false_eq_true, if_false]
      omega
    · have h3 : t < p.1 := by omega
      by_cases h2 : p.1 ≤ x
      · simp only [h1, h2, h3, decide_true, decide_false, if_true, List.map_cons, List.sum_cons, ih,
          List.filter_cons, Bool.false_eq_true, if_false]
        omega
      · simp only [h1, h2, h3, decide_true, decide_false, if_true, ih,
          List.filter_cons, Bool.false_eq_true, if_false]

theorem balance_mature (w : World) {t x : Nat} (h : t ≤ x) : balanceAt (mature w t) x = balanceAt w x := by
  simp only [balanceAt, mature]
  rw [sum_filter_split w.pending h]
  omega

theorem balance_now (w : World) (t : Nat) : (mature w t).bank = balanceAt w t := rfl

theorem balance_cons (w : World) (t a x : Nat) : balanceAt { w with pending := (t, a) :: w.pending } x =
    balanceAt w x + if t ≤ x then a else 0 := by
  simp only [balanceAt, List.filter_cons]
  by_cases h : t ≤ x
  · simp only [h, decide_true, if_true, List.map_cons, List.sum_cons]; omega
  · simp only [h, decide_false, if_false, Bool.false_eq_true]; omega

/-! ## Inversion of the parts -/

theorem sub128_eq {a b c : Nat} (h : sub128 a b = .ok c) : c + b = a := by
  have := (sub128_ok _ _ _).mp h
  omega

/-- What a computed liquid amount is. -/
theorem liquid_eq {v : Vest} {st l : Nat} (h : liquid v st = .ok l) :
    match v.status with
    | .unfunded => l = 0
    | .funded => l + v.slashed + st + v.claimed = v.total
    | .canceled ow => l + st + v.claimed = ow + v.total ∧ v.claimed ≤ v.total := by
  unfold liquid at h
  cases hs : v.status with
  | unfunded =>
    rw [hs] at h
    simp only [Except.ok.injEq] at h
    exact h.symm
  | funded =>
    rw [hs] at h
    obtain ⟨a, h1, h⟩ := (bind_ok _ _ _).mp h
    obtain ⟨b, h2, h⟩ := (bind_ok _ _ _).mp h
    have := sub128_eq h1
    have := sub128_eq h2
    have := sub128_eq h
    simp only
    omega
  | canceled ow =>
    rw [hs] at h
    obtain ⟨a, h1, h⟩ := (bind_ok _ _ _).mp h
    obtain ⟨b, h2, h⟩ := (bind_ok _ _ _).mp h
    have := sub128_eq h1
    have := (add128_ok _ _ _).mp h2
    have := sub128_eq h
    simp only
    omega

theorem claimable_eq {v : Vest} {t c : Nat} (h : claimable v t = .ok c) :
    ∃ y, v.vested t = .ok y ∧ v.claimed ≤ y ∧ c = due v y := by
  unfold claimable at h
  obtain ⟨y, h1, h⟩ := (bind_ok _ _ _).mp h
  obtain ⟨b, h2, h⟩ := (bind_ok _ _ _).mp h
  have := (sub128_ok _ _ _).mp h2
  simp only [Except.ok.injEq] at h
  refine ⟨y, h1, this.1, ?_⟩
  unfold due
  omega

theorem claimable_ok {v : Vest} {t y : Nat} (h1 : v.vested t = .ok y) (h2 : v.claimed ≤ y) :
    claimable v t = .ok (due v y) := by
  unfold claimable
  rw [h1, ok_bind, (sub128_ok _ _ _).mpr ⟨h2, rfl⟩, ok_bind]
  rfl

/-- What happens to the vest on a slash. -/
theorem slashVest_eq {v v' : Vest} {a : Nat} (h : slashVest v a = .ok v') :
    (v.status = .funded ∧ v' = { v with slashed := v.slashed + a }) ∨
    (∃ ow, v.status = .canceled ow ∧ a ≤ ow ∧ v' = { v with status := .canceled (ow - a) }) ∨
    (∃ ow, v.status = .canceled ow ∧ ow < a ∧
      v' = { v with status := .canceled 0, slashed := v.slashed + (a - ow) }) := by
  unfold slashVest at h
  cases hs : v.status with
  | unfunded => rw [hs] at h; cases h
  | funded =>
    rw [hs] at h
    obtain ⟨s, h1, h⟩ := (bind_ok _ _ _).mp h
    have := (add128_ok _ _ _).mp h1
    simp only [Except.ok.injEq] at h
    left
    refine ⟨rfl, ?_⟩
    rw [← h, ← this.2]
  | canceled ow =>
    rw [hs] at h
    simp only at h
    split at h
    · rename_i hlt
      obtain ⟨s, h1, h⟩ := (bind_ok _ _ _).mp h
      have := (add128_ok _ _ _).mp h1
      simp only [Except.ok.injEq] at h
      right; right
      refine ⟨ow, rfl, hlt, ?_⟩
      rw [← h, ← this.2]
    · simp only [Except.ok.injEq] at h
      right; left
      exact ⟨ow, rfl, by omega, h.symm⟩

/-! ## Effects -/

/-- Everything a transaction can do, seen after unbonded tokens were paid back. -/
inductive Effect (w : World) (e : Env) : Call → World → List Pay → Prop
  | receive (a : Nat) : w.c.vest.status = .unfunded → w.c.vest.total = a → w.c.vest.denom = .cw20 e.sender →
      Effect w e (.msg (.receive a))
        { w with c := { w.c with vest := { w.c.vest with status := .funded } }, bank := w.bank + a } []
  | distribute (q : Option Nat) (r l y : Nat) :
      liquid w.c.vest (totalStaked w.c.staking (secs e.block)) = .ok l →
      w.c.vest.vested (secs e.block) = .ok y → w.c.vest.claimed ≤ y → r = q.getD (min l (due w.c.vest y)) →
      r ≤ l → r ≤ due w.c.vest y → r ≠ 0 → r ≤ w.bank →
      Effect w e (.msg (.distribute q))
        { w with c := { w.c with vest := { w.c.vest with claimed := w.c.vest.claimed + r } }, bank := w.bank - r }
        [.toRecipient r]
  | cancel (l y r o ow : Nat) : w.c.owner.owner = some e.sender → (∀ x, w.c.vest.status ≠ .canceled x) →
      liquid w.c.vest (totalStaked w.c.staking (secs e.block)) = .ok l →
      w.c.vest.vested (secs e.block) = .ok y → w.c.vest.claimed ≤ y →
      r = min (due w.c.vest y) l → r + o = l →
      ow + (y - (w.c.vest.claimed + r) - w.c.vest.slashed) = totalStaked w.c.staking (secs e.block) →
      l ≤ w.bank →
      Effect w e (.msg .cancel)
        { w with c := { w.c with vest := { w.c.vest with claimed := w.c.vest.claimed + r, status := .canceled ow,
                                                          curve := .constant y } }
                 bank := w.bank - l }
        (.distribution :: (payOwnerIf e.sender o ++ payRecipientIf r))
  | withdraw (q : Option Nat) (r l ow o : Nat) : w.c.vest.status = .canceled ow →
      liquid w.c.vest (totalStaked w.c.staking (secs e.block)) = .ok l → w.c.owner.owner = some o →
      r = q.getD (min l ow) → r ≤ l → r ≤ ow → r ≠ 0 → r ≤ w.bank →
      Effect w e (.msg (.withdrawCanceled q))
        { w with c := { w.c with vest := { w.c.vest with status := .canceled (ow - r) } }, bank := w.bank - r }
        [.toOwner o r]
  | owner (a : OwnerAction) (o : Ownership) : mayUpdateOwner w.c a = true →
      w.c.owner.update e.block e.sender a = .ok o →
      Effect w e (.msg (.updateOwnership a)) { w with c := { w.c with owner := o } } []
  | delegate (v a : Nat) (st : StakeTracker.State) : w.c.vest.status = .funded → e.sender = w.c.vest.recipient →
      StakeTracker.onDelegate w.c.staking (secs e.block) v a = .ok st → a ≤ w.bank →
      Effect w e (.msg (.delegate v a))
        { w with c := { w.c with staking := st }, bank := w.bank - a, bonded := w.bonded + a } [.delegate v a]
  | redelegate (v v' a : Nat) (st : StakeTracker.State) : w.c.vest.status = .funded →
      e.sender = w.c.vest.recipient → StakeTracker.onRedelegate w.c.staking (secs e.block) v v' a = .ok st →
      Effect w e (.msg (.redelegate v v' a)) { w with c := { w.c with staking := st } } [.redelegate v v' a]
  | undelegate (v a : Nat) (st : StakeTracker.State) : w.c.vest.status ≠ .unfunded →
      (w.c.vest.status = .funded → e.sender = w.c.vest.recipient) →
      StakeTracker.onUndelegate w.c.staking (secs e.block) v a w.c.ubs = .ok st → a ≤ w.bonded →
      Effect w e (.msg (.undelegate v a))
        { w with c := { w.c with staking := st }, bonded := w.bonded - a
                 pending := (secs e.block + w.c.ubs, a) :: w.pending } [.undelegate v a]
  | address : maySetWithdraw w.c e = .ok () → Effect w e (.msg .setWithdrawAddress) w [.distribution]
  | reward (v : Nat) : Effect w e (.msg (.withdrawReward v)) w [.distribution]
  | slash (v t a : Nat) (u : Bool) (vest : Vest) (st : StakeTracker.State) : w.c.owner.owner = some e.sender →
      t ≤ e.block.time → a ≠ 0 → slashVest w.c.vest a = .ok vest →
      slashStake w.c.staking v (t / 1000000000) a u = .ok st →
      Effect w e (.msg (.registerSlash v t a u)) { w with c := { w.c with vest := vest, staking := st } } []
  | donate (a : Nat) : Effect w e (.donate a) { w with bank := w.bank + a } []
  | slashBonded (a : Nat) : a ≤ w.bonded → Effect w e (.slashBonded a) { w with bonded := w.bonded - a } []
  | slashUnbonding (i a : Nat) :
      Effect w e (.slashUnbonding i a) { w with pending := slashEntry w.pending i a } []

theorem settle_one {t : Nat} {p : Pay} {w w' : World} (h : settle t [p] w = .ok w') : settle1 w t p = .ok w' := by
  unfold settle at h
  obtain ⟨w1, h1, h⟩ := (bind_ok _ _ _).mp h
  simp only [settle, Except.ok.injEq] at h
  rw [h1, h]

theorem settle_owner {t o a : Nat} {w w' : World} {rest : List Pay}
    (h : settle t (payOwnerIf o a ++ rest) w = .ok w') :
    a ≤ w.bank ∧ settle t rest { w with bank := w.bank - a } = .ok w' := by
  unfold payOwnerIf at h
  split at h
  · simp only [List.cons_append, List.nil_append] at h
    unfold settle at h
    obtain ⟨w1, h1, h⟩ := (bind_ok _ _ _).mp h
    simp only [settle1] at h1
    obtain ⟨b, hb, h1⟩ := (bind_ok _ _ _).mp h1
    obtain ⟨hle, rfl⟩ := (sub128_ok _ _ _).mp hb
    simp only [Except.ok.injEq] at h1
    subst h1
    exact ⟨hle, h⟩
  · rename_i ha
    have : a = 0 := by omega
    subst this
    exact ⟨Nat.zero_le _, h⟩

theorem settle_recipient {t a : Nat} {w w' : World} (h : settle t (payRecipientIf a) w = .ok w') :
    a ≤ w.bank ∧ w' = { w with bank := w.bank - a } := by
  unfold payRecipientIf at h
  split at h
  · have h := settle_one h
    simp only [settle1] at h
    obtain ⟨b, hb, h⟩ := (bind_ok _ _ _).mp h
    obtain ⟨hle, rfl⟩ := (sub128_ok _ _ _).mp hb
    simp only [Except.ok.injEq] at h
    exact ⟨hle, h.symm⟩
  · rename_i ha
    have : a = 0 := by omega
    subst this
    simp only [settle, Except.ok.injEq] at h
    exact ⟨Nat.zero_le _, h.symm⟩

theorem mayStake_ok {s : State} {e : Env} {u : Unit} (h : mayStake s e = .ok u) :
    s.vest.status = .funded ∧ e.sender = s.vest.recipient ∧ s.vest.denom = .native true := by
  unfold mayStake at h
  obtain ⟨_, h1, h⟩ := (bind_ok _ _ _).mp h
  obtain ⟨_, h2, h⟩ := (bind_ok _ _ _).mp h
  have h1 := (require_ok _ _ _).mp h1
  have h2 := (require_ok _ _ _).mp h2
  have h := (require_ok _ _ _).mp h
  simp only [decide_eq_true_eq] at h1 h2 h
  exact ⟨h1, h2, h⟩

theorem step_effect {w w' : World} {e : Env} {call : Call} {o : List Pay} (h : step w e call = .ok (w', o)) :
    Effect (mature w (secs e.block)) e call w' o := by
  unfold step at h
  generalize mature w (secs e.block) = m at h ⊢
  cases call with
  | donate a =>
    simp only [Except.ok.injEq, Prod.mk.injEq] at h
    obtain ⟨rfl, rfl⟩ := h
    exact .donate a
  | slashBonded a =>
    simp only at h
    obtain ⟨b, hb, h⟩ := (bind_ok _ _ _).mp h
    obtain ⟨hle, rfl⟩ := (sub128_ok _ _ _).mp hb
    simp only [Except.ok.injEq, Prod.mk.injEq] at h
    obtain ⟨rfl, rfl⟩ := h
    exact .slashBonded a hle
  | slashUnbonding i a =>
    simp only [Except.ok.injEq, Prod.mk.injEq] at h
    obtain ⟨rfl, rfl⟩ := h
    exact .slashUnbonding i a
  | msg x =>
    simp only at h
    obtain ⟨⟨s, out⟩, hx, h⟩ := (bind_ok _ _ _).mp h
    obtain ⟨w1, hset, h⟩ := (bind_ok _ _ _).mp h
    simp only [Except.ok.injEq, Prod.mk.injEq] at h
    obtain ⟨rfl, rfl⟩ := h
    simp only at hset
    cases x with
    | receive a =>
      simp only [exec, receive] at hx
      obtain ⟨_, h1, hx⟩ := (bind_ok _ _ _).mp hx
      obtain ⟨_, h2, hx⟩ := (bind_ok _ _ _).mp hx
      obtain ⟨_, h3, hx⟩ := (bind_ok _ _ _).mp hx
      have h1 := (require_ok _ _ _).mp h1
      have h2 := (require_ok _ _ _).mp h2
      have h3 := (require_ok _ _ _).mp h3
      simp only [decide_eq_true_eq] at h1 h2 h3
      simp only [Except.ok.injEq, Prod.mk.injEq] at hx
      obtain ⟨rfl, rfl⟩ := hx
      simp only [settle, incoming, Except.ok.injEq] at hset
      subst hset
      exact .receive a h3 h1 h2
    | distribute q =>
      simp only [exec, distribute] at hx
      obtain ⟨d, h1, hx⟩ := (bind_ok _ _ _).mp hx
      obtain ⟨cl, h2, hx⟩ := (bind_ok _ _ _).mp hx
      obtain ⟨_, h3, hx⟩ := (bind_ok _ _ _).mp hx
      unfold distributable at h1
      obtain ⟨l, hl, h1⟩ := (bind_ok _ _ _).mp h1
      obtain ⟨c, hc, h1⟩ := (bind_ok _ _ _).mp h1
      simp only [Except.ok.injEq] at h1
      obtain ⟨y, hy, hcy, rfl⟩ := claimable_eq hc
      have h3 := (require_ok _ _ _).mp h3
      simp only [Bool.and_eq_true, decide_eq_true_eq] at h3
      obtain ⟨_, rfl⟩ := (add128_ok _ _ _).mp h2
      simp only [Except.ok.injEq, Prod.mk.injEq] at hx
      obtain ⟨rfl, rfl⟩ := hx
      have hset := settle_one hset
      simp only [settle1, incoming, Nat.add_zero] at hset
      obtain ⟨b, hb, hset⟩ := (bind_ok _ _ _).mp hset
      obtain ⟨hle, rfl⟩ := (sub128_ok _ _ _).mp hb
      simp only [Except.ok.injEq] at hset
      subst hset
      exact .distribute q _ l y hl hy hcy (by rw [h1]) (by omega) (by omega) h3.2 hle
    | cancel =>
      simp only [exec] at hx
      obtain ⟨_, ho, hx⟩ := (bind_ok _ _ _).mp hx
      have ho := Ownership.assertOwner_ok.mp ho
      unfold cancel at hx
      obtain ⟨_, hs, hx⟩ := (bind_ok _ _ _).mp hx
      obtain ⟨l, hl, hx⟩ := (bind_ok _ _ _).mp hx
      obtain ⟨c, hc, hx⟩ := (bind_ok _ _ _).mp hx
      obtain ⟨cl, hcl, hx⟩ := (bind_ok _ _ _).mp hx
      obtain ⟨c2, hc2, hx⟩ := (bind_ok _ _ _).mp hx
      obtain ⟨out2, hout, hx⟩ := (bind_ok _ _ _).mp hx
      obtain ⟨y2, hy2, hx⟩ := (bind_ok _ _ _).mp hx
      simp only [Except.ok.injEq, Prod.mk.injEq] at hx
      obtain ⟨rfl, rfl⟩ := hx
      obtain ⟨y, hy, hcy, rfl⟩ := claimable_eq hc
      obtain ⟨y3, hy3, _, rfl⟩ := claimable_eq hc2
      have e1 : y2 = y := by
        have : Except.ok y2 = (Except.ok y : Res Nat) := by rw [← hy2, ← hy]; rfl
        simpa using this
      have e2 : y3 = y := by
        have : Except.ok y3 = (Except.ok y : Res Nat) := by rw [← hy3, ← hy]; rfl
        simpa using this
      subst e1
      subst e2
      obtain ⟨_, rfl⟩ := (add128_ok _ _ _).mp hcl
      have hout := sub128_eq hout
      have hs := (require_ok _ _ _).mp hs
      unfold settle at hset
      obtain ⟨w2, hw2, hset⟩ := (bind_ok _ _ _).mp hset
      simp only [settle1, Except.ok.injEq] at hw2
      subst hw2
      obtain ⟨k1, hset⟩ := settle_owner hset
      obtain ⟨k2, rfl⟩ := settle_recipient hset
      simp only [incoming, Nat.add_zero] at k1 k2
      have hsum : min (due m.c.vest y3) l + (l - min (due m.c.vest y3) l) = l := by omega
      have := Effect.cancel (w := m) (e := e) l y3 _ _ out2 ho (by
        intro x hx; rw [hx] at hs; cases hs) hl hy hcy rfl hsum (by
        simp only [due] at hout; exact hout) (by omega)
      have hb : m.bank - l = m.bank + incoming .cancel - (l - min (due m.c.vest y3) l) - min (due m.c.vest y3) l := by
        simp only [incoming]; omega
      rw [hb] at this
      exact this
    | withdrawCanceled q =>
      simp only [exec] at hx
      obtain ⟨ow0, ho, hx⟩ := (bind_ok _ _ _).mp hx
      have ho := (orErr_ok _ _ _).mp ho
      unfold withdraw at hx
      cases hs : m.c.vest.status with
      | unfunded => rw [hs] at hx; cases hx
      | funded => rw [hs] at hx; cases hx
      | canceled ow =>
        rw [hs] at hx
        simp only at hx
        obtain ⟨l, hl, hx⟩ := (bind_ok _ _ _).mp hx
        obtain ⟨_, h3, hx⟩ := (bind_ok _ _ _).mp hx
        have h3 := (require_ok _ _ _).mp h3
        simp only [Bool.and_eq_true, decide_eq_true_eq] at h3
        simp only [Except.ok.injEq, Prod.mk.injEq] at hx
        obtain ⟨rfl, rfl⟩ := hx
        have hset := settle_one hset
        simp only [settle1, incoming, Nat.add_zero] at hset
        obtain ⟨b, hb, hset⟩ := (bind_ok _ _ _).mp hset
        obtain ⟨hle, rfl⟩ := (sub128_ok _ _ _).mp hb
        simp only [Except.ok.injEq] at hset
        subst hset
        exact .withdraw q _ l ow ow0 hs hl ho rfl (by omega) (by omega) h3.2 hle
    | updateOwnership a =>
      simp only [exec] at hx
      obtain ⟨_, h1, hx⟩ := (bind_ok _ _ _).mp hx
      obtain ⟨o, h2, hx⟩ := (bind_ok _ _ _).mp hx
      have h1 := (require_ok _ _ _).mp h1
      simp only [Except.ok.injEq, Prod.mk.injEq] at hx
      obtain ⟨rfl, rfl⟩ := hx
      simp only [settle, incoming, Except.ok.injEq] at hset
      subst hset
      exact .owner a o h1 h2
    | delegate v a =>
      simp only [exec, delegate] at hx
      obtain ⟨_, h1, hx⟩ := (bind_ok _ _ _).mp hx
      obtain ⟨st, h2, hx⟩ := (bind_ok _ _ _).mp hx
      obtain ⟨h1, h1', _⟩ := mayStake_ok h1
      simp only [Except.ok.injEq, Prod.mk.injEq] at hx
      obtain ⟨rfl, rfl⟩ := hx
      have hset := settle_one hset
      simp only [settle1, incoming, Nat.add_zero] at hset
      obtain ⟨b, hb, hset⟩ := (bind_ok _ _ _).mp hset
      obtain ⟨hle, rfl⟩ := (sub128_ok _ _ _).mp hb
      simp only [Except.ok.injEq] at hset
      subst hset
      exact .delegate v a st h1 h1' h2 hle
    | redelegate v v' a =>
      simp only [exec, redelegate] at hx
      obtain ⟨_, h1, hx⟩ := (bind_ok _ _ _).mp hx
      obtain ⟨_, _, hx⟩ := (bind_ok _ _ _).mp hx
      obtain ⟨_, _, hx⟩ := (bind_ok _ _ _).mp hx
      obtain ⟨st, h2, hx⟩ := (bind_ok _ _ _).mp hx
      obtain ⟨h1, h1', _⟩ := mayStake_ok h1
      simp only [Except.ok.injEq, Prod.mk.injEq] at hx
      obtain ⟨rfl, rfl⟩ := hx
      have hset := settle_one hset
      simp only [settle1, incoming, Nat.add_zero] at hset
      obtain ⟨b, hb, hset⟩ := (bind_ok _ _ _).mp hset
      simp only [Except.ok.injEq] at hset
      subst hset
      exact .redelegate v v' a st h1 h1' h2
    | undelegate v a =>
      simp only [exec, undelegate] at hx
      obtain ⟨_, h1, hx⟩ := (bind_ok _ _ _).mp hx
      obtain ⟨st, h2, hx⟩ := (bind_ok _ _ _).mp hx
      have hm : m.c.vest.status ≠ .unfunded ∧ (m.c.vest.status = .funded → e.sender = m.c.vest.recipient) := by
        unfold mayUnstake at h1
        cases hs : m.c.vest.status with
        | unfunded => rw [hs] at h1; cases h1
        | funded =>
          rw [hs] at h1
          have h1 := (require_ok _ _ _).mp h1
          simp only [decide_eq_true_eq] at h1
          exact ⟨by simp, fun _ => h1⟩
        | canceled x => exact ⟨by simp, by simp⟩
      simp only [Except.ok.injEq, Prod.mk.injEq] at hx
      obtain ⟨rfl, rfl⟩ := hx
      have hset := settle_one hset
      simp only [settle1, incoming, Nat.add_zero] at hset
      obtain ⟨b, hb, hset⟩ := (bind_ok _ _ _).mp hset
      obtain ⟨hle, rfl⟩ := (sub128_ok _ _ _).mp hb
      simp only [Except.ok.injEq] at hset
      subst hset
      exact .undelegate v a st hm.1 hm.2 h2 hle
    | setWithdrawAddress =>
      simp only [exec, setWithdrawAddress] at hx
      obtain ⟨_, h1, hx⟩ := (bind_ok _ _ _).mp hx
      simp only [Except.ok.injEq, Prod.mk.injEq] at hx
      obtain ⟨rfl, rfl⟩ := hx
      have hset := settle_one hset
      simp only [settle1, incoming, Nat.add_zero, Except.ok.injEq] at hset
      subst hset
      exact .address h1
    | withdrawReward v =>
      simp only [exec, Except.ok.injEq, Prod.mk.injEq] at hx
      obtain ⟨rfl, rfl⟩ := hx
      have hset := settle_one hset
      simp only [settle1, incoming, Nat.add_zero, Except.ok.injEq] at hset
      subst hset
      exact .reward v
    | registerSlash v t a u =>
      simp only [exec] at hx
      obtain ⟨_, ho, hx⟩ := (bind_ok _ _ _).mp hx
      obtain ⟨_, h1, hx⟩ := (bind_ok _ _ _).mp hx
      obtain ⟨s2, h2, hx⟩ := (bind_ok _ _ _).mp hx
      have ho := Ownership.assertOwner_ok.mp ho
      have h1 := (require_ok _ _ _).mp h1
      simp only [decide_eq_true_eq] at h1
      unfold registerSlash at h2
      obtain ⟨_, h3, h2⟩ := (bind_ok _ _ _).mp h2
      obtain ⟨vest, h4, h2⟩ := (bind_ok _ _ _).mp h2
      obtain ⟨st, h5, h2⟩ := (bind_ok _ _ _).mp h2
      have h3 := (require_ok _ _ _).mp h3
      simp only [decide_eq_true_eq] at h3
      simp only [Except.ok.injEq] at h2
      subst h2
      simp only [Except.ok.injEq, Prod.mk.injEq] at hx
      obtain ⟨rfl, rfl⟩ := hx
      simp only [settle, incoming, Except.ok.injEq] at hset
      subst hset
      exact .slash v t a u vest st ho h1 h3 h4 h5

end Verif.Vesting
