import Verif.Proofs.Vesting
/-!
# What holds in every history of a vesting contract
-/

namespace Verif.Vesting

open Verif.Spec.Vesting
open Verif.StakeTracker (secs totalStaked)

/-- The part of the invariant that depends on the status. -/
def StatusInv (T : Nat) (w : World) (log : Log) : Prop :=
  match w.c.vest.status with
  | .unfunded => w.c.vest.total = T ∧ paidOwner log = 0 ∧ w.c.vest.claimed = 0 ∧
      (∀ x, totalStaked w.c.staking x = 0) ∧ w.c.vest.slashed = 0
  | .funded => w.c.vest.total = T ∧ paidOwner log = 0
  | .canceled ow => w.c.vest.claimed + paidOwner log + ow + due w.c.vest w.c.vest.total ≤ T ∧
      w.c.vest.curve = .constant w.c.vest.total ∧ (ow ≠ 0 → w.c.owner.owner ≠ none) ∧
      ow + (w.c.vest.total - w.c.vest.claimed) ≤ T

/-- Holds in every history; `T` is the total at creation. -/
structure Inv (T : Nat) (w : World) (b : Block) (log : Log) : Prop where
  wf : StakeTracker.WF w.c.staking
  good : Good w.c.vest.curve
  claimed : w.c.vest.claimed = paidRecipient log
  below : ∀ t v, secs b ≤ t → w.c.vest.vested t = .ok v → w.c.vest.claimed ≤ v
  cap : w.c.vest.claimed ≤ w.c.vest.total
  totalLe : w.c.vest.total ≤ T
  status : StatusInv T w log

/-- Holds in plain histories; `B` is the balance at creation. -/
structure PlainInv (B : Nat) (w : World) (b : Block) (log : Log) : Prop where
  funds : ∀ x, secs b ≤ x → match w.c.vest.status with
    | .unfunded => balanceAt w x = 0
    | .funded => balanceAt w x + w.c.vest.claimed + w.c.vest.slashed + totalStaked w.c.staking x = w.c.vest.total
    | .canceled ow => balanceAt w x + totalStaked w.c.staking x = ow + due w.c.vest w.c.vest.total
  flow : ∀ x, secs b ≤ x →
    balanceAt w x + totalStaked w.c.staking x + paidRecipient log + paidOwner log + registered log = B + funded log

theorem payR_owner (o a : Nat) : ((payOwnerIf o a).map payR).sum = 0 := by unfold payOwnerIf; split <;> rfl
theorem payO_owner (o a : Nat) : ((payOwnerIf o a).map payO).sum = a := by
  unfold payOwnerIf
  split
  · simp [payO]
  · simp; omega
theorem payR_recipient (a : Nat) : ((payRecipientIf a).map payR).sum = a := by
  unfold payRecipientIf
  split
  · simp [payR]
  · simp; omega
theorem payO_recipient (a : Nat) : ((payRecipientIf a).map payO).sum = 0 := by unfold payRecipientIf; split <;> rfl

theorem slashStake_wf {s s' : StakeTracker.State} {v t a : Nat} {u : Bool} (hw : StakeTracker.WF s)
    (h : slashStake s v t a u = .ok s') : StakeTracker.WF s' := by
  unfold slashStake at h
  cases u with
  | true =>
    simp only [if_true] at h
    refine StakeTracker.wf_step (b := ⟨0, 0⟩) (call := .unbondingSlash t v a) (o := ()) hw ?_
    simp only [StakeTracker.sys, StakeTracker.step, h, ok_bind]
  | false =>
    simp only [Bool.false_eq_true, if_false] at h
    exact (StakeTracker.onBondedSlash_effect hw h).1

theorem inv_start {m : InstMsg} {b : Block} {w : World} (h : Started m b w) :
    Inv m.total w b [] ∧ PlainInv (initialBank m) w b [] ∧ w.c.vest.total = m.total ∧ w.c.vest.claimed = 0 := by
  obtain ⟨_, hi, hb, _, hp⟩ := h
  unfold instantiate at hi
  obtain ⟨_, h1, hi⟩ := (bind_ok _ _ _).mp hi
  obtain ⟨_, h2, hi⟩ := (bind_ok _ _ _).mp hi
  obtain ⟨_, h3, hi⟩ := (bind_ok _ _ _).mp hi
  obtain ⟨c, h4, hi⟩ := (bind_ok _ _ _).mp hi
  have h3 := (require_ok _ _ _).mp h3
  simp only [decide_eq_true_eq] at h3
  simp only [Except.ok.injEq] at hi
  obtain ⟨g1, g2, g3, g4, _⟩ := intoCurve_good h3 h4
  have hT : ∀ x, totalStaked StakeTracker.empty x = 0 := fun _ => rfl
  rw [← hi]
  have hc : w.c = _ := hi.symm
  have hwc : w = { c := w.c, bank := w.bank, bonded := w.bonded, pending := w.pending } := rfl
  have htot : w.c.vest.total = m.total := by rw [hc]; exact g2
  have hbal : ∀ x, balanceAt w x = initialBank m := by
    intro x
    simp [balanceAt, hb, hp]
  refine ⟨⟨?_, ?_, ?_, ?_, ?_, ?_, ?_⟩, ⟨?_, ?_⟩, g2, rfl⟩
  · rw [hc]; exact StakeTracker.wf_empty
  · rw [hc]; exact g1
  · rw [hc]; rfl
  · intro t v _ _; rw [hc]; exact Nat.zero_le _
  · rw [hc]; exact Nat.zero_le _
  · rw [htot]; exact Nat.le_refl _
  · unfold StatusInv
    rw [htot]
    rw [hc]
    cases hd : m.denom with
    | native bd => exact ⟨rfl, rfl⟩
    | cw20 tk => exact ⟨rfl, rfl, rfl, hT, rfl⟩
  · intro x _
    rw [hbal, htot]
    rw [hc]
    cases hd : m.denom with
    | native bd => simp [initialStatus, initialBank, hd, hT]
    | cw20 tk => simp [initialStatus, initialBank, hd]
  · intro x _
    rw [hbal, hc]
    simp [hT, paidRecipient, paidOwner, registered, funded]

theorem inv_step {T : Nat} {w w' : World} {b : Block} {e : Env} {call : Call} {o : List Pay} {log : Log}
    (ih : Inv T w b log) (hb : b.le e.block) (h : step w e call = .ok (w', o)) :
    Inv T w' e.block (⟨w, e, call, o, w'⟩ :: log) := by
  have he := step_effect h
  have hsec := StakeTracker.secs_mono hb
  have hmc : (mature w (secs e.block)).c = w.c := rfl
  clear h
  generalize hm : mature w (secs e.block) = m at he hmc
  obtain ⟨i1, i2, i3, i4, i5, i6, i7⟩ := ih
  rw [← hmc] at i1 i2 i3 i4 i5 i6
  unfold StatusInv at i7
  rw [← hmc] at i7
  have i4' : ∀ t v, secs e.block ≤ t → m.c.vest.vested t = .ok v → m.c.vest.claimed ≤ v :=
    fun t v ht hv => i4 t v (by omega) hv
  cases he with
  | receive a h1 h2 h3 =>
    rw [h1] at i7
    refine ⟨i1, i2, by simpa [paidRecipient] using i3, i4', i5, i6, ?_⟩
    unfold StatusInv
    simp only [paidOwner, List.map_nil, List.sum_nil, Nat.zero_add]
    exact ⟨i7.1, i7.2.1⟩
  | distribute q r l y hl hy hcy hr h1 h2 h3 h4 =>
    have hyt : y ≤ m.c.vest.total := i2.top _ _ hy
    simp only [due] at h2
    refine ⟨i1, i2, ?_, ?_, ?_, i6, ?_⟩
    · simp only [paidRecipient, List.map_cons, List.map_nil, payR, List.sum_cons, List.sum_nil]
      omega
    · intro t v ht hv
      have : y ≤ v := i2.mono _ _ _ _ (Nat.sub_le_sub_right ht _) hy hv
      simp only
      omega
    · show m.c.vest.claimed + r ≤ m.c.vest.total
      omega
    · unfold StatusInv
      simp only [paidOwner, List.map_cons, List.map_nil, payO, List.sum_cons, List.sum_nil, Nat.zero_add]
      cases hs : m.c.vest.status with
      | unfunded =>
        have := liquid_eq hl
        rw [hs] at this
        simp only at this
        omega
      | funded => rw [hs] at i7; exact i7
      | canceled ow =>
        rw [hs] at i7
        simp only at i7 ⊢
        have h := i7.1
        have h' := i7.2.2.2
        refine ⟨?_, i7.2.1, i7.2.2.1, ?_⟩
        · simp only [due] at h ⊢
          simp only [Vest.total] at h hyt ⊢
          omega
        · simp only [Vest.total] at h' ⊢
          omega
  | cancel l y r o ow h1 h2 hl hy hcy hr hro how hbank =>
    have hyt : y ≤ m.c.vest.total := i2.top _ _ hy
    simp only [due] at hr
    refine ⟨i1, good_constant y, ?_, ?_, ?_, ?_, ?_⟩
    · simp only [paidRecipient, List.map_cons, List.map_append, payR, List.sum_cons, List.sum_append,
        payR_owner, payR_recipient]
      omega
    · intro t v ht hv
      simp only [Vest.vested, Curve.value, Except.ok.injEq] at hv
      show m.c.vest.claimed + r ≤ v
      omega
    · show m.c.vest.claimed + r ≤ y
      omega
    · show y ≤ T
      omega
    · unfold StatusInv
      simp only [paidOwner, List.map_cons, List.map_append, payO, List.sum_cons, List.sum_append,
        payO_owner, payO_recipient]
      have := liquid_eq hl
      cases hs : m.c.vest.status with
      | unfunded =>
        rw [hs] at i7 this
        simp only at i7 this
        rw [i7.2.2.2.1] at how
        refine ⟨?_, rfl, fun _ => by rw [h1]; simp, ?_⟩ <;>
        · simp only [Vest.total, Curve.range, due]
          omega
      | funded =>
        rw [hs] at i7 this
        simp only at i7 this
        have h := i7.1
        have h' := i7.2
        simp only [Vest.total, due] at this h hyt
        refine ⟨?_, rfl, fun _ => by rw [h1]; simp, ?_⟩ <;>
        · simp only [Vest.total, due, Curve.range]
          omega
      | canceled x => exact absurd hs (h2 x)
  | withdraw q r l ow o hs hl ho hr h1 h2 h3 h4 =>
    rw [hs] at i7
    simp only at i7
    refine ⟨i1, i2, by simpa [paidRecipient, payR] using i3, i4', i5, i6, ?_⟩
    unfold StatusInv
    simp only [paidOwner, List.map_cons, List.map_nil, payO, List.sum_cons, List.sum_nil]
    have h := i7.1
    have h' := i7.2.2.2
    refine ⟨?_, i7.2.1, fun hne => i7.2.2.1 (by omega), ?_⟩ <;>
    · simp only [due, Vest.total] at h h' ⊢
      omega
  | owner a o h1 h2 =>
    refine ⟨i1, i2, by simpa [paidRecipient] using i3, i4', i5, i6, ?_⟩
    unfold StatusInv
    simp only [paidOwner, List.map_nil, List.sum_nil, Nat.zero_add]
    cases hs : m.c.vest.status with
    | unfunded => rw [hs] at i7; exact i7
    | funded => rw [hs] at i7; exact i7
    | canceled ow =>
      rw [hs] at i7
      simp only at i7 ⊢
      refine ⟨i7.1, i7.2.1, ?_, i7.2.2.2⟩
      intro hne
      unfold mayUpdateOwner at h1
      rw [hs] at h1
      cases a with
      | renounce => simp [hne] at h1
      | transfer n ex =>
        simp only [Ownership.update] at h2
        obtain ⟨_, _, h2⟩ := (bind_ok _ _ _).mp h2
        simp only [Except.ok.injEq] at h2
        rw [← h2]
        exact i7.2.2.1 hne
      | accept =>
        simp only [Ownership.update] at h2
        obtain ⟨_, h3, h2⟩ := (bind_ok _ _ _).mp h2
        obtain ⟨_, _, h2⟩ := (bind_ok _ _ _).mp h2
        have h3 := (require_ok _ _ _).mp h3
        simp only [decide_eq_true_eq] at h3
        simp only [Except.ok.injEq] at h2
        rw [← h2]
        simp [h3]
  | delegate v a st hs h1 h2 h3 =>
    rw [hs] at i7
    refine ⟨(StakeTracker.onDelegate_effect i1 h2).1, i2, by simpa [paidRecipient, payR] using i3, i4', i5, i6, ?_⟩
    unfold StatusInv
    simp only [paidOwner, List.map_cons, List.map_nil, payO, List.sum_cons, List.sum_nil, Nat.zero_add, hs]
    exact i7
  | redelegate v v' a st hs h1 h2 =>
    rw [hs] at i7
    refine ⟨(StakeTracker.onRedelegate_effect i1 h2).1, i2, by simpa [paidRecipient, payR] using i3, i4', i5, i6, ?_⟩
    unfold StatusInv
    simp only [paidOwner, List.map_cons, List.map_nil, payO, List.sum_cons, List.sum_nil, Nat.zero_add, hs]
    exact i7
  | undelegate v a st h0 h1 h2 h3 =>
    refine ⟨(StakeTracker.onUndelegate_effect i1 h2).1, i2, by simpa [paidRecipient, payR] using i3, i4', i5, i6, ?_⟩
    unfold StatusInv
    simp only [paidOwner, List.map_cons, List.map_nil, payO, List.sum_cons, List.sum_nil, Nat.zero_add]
    cases hs : m.c.vest.status with
    | unfunded => exact absurd hs h0
    | funded => rw [hs] at i7; exact i7
    | canceled ow => rw [hs] at i7; exact i7
  | address h1 =>
    refine ⟨i1, i2, by simpa [paidRecipient, payR] using i3, i4', i5, i6, ?_⟩
    unfold StatusInv
    simp only [paidOwner, List.map_cons, List.map_nil, payO, List.sum_cons, List.sum_nil, Nat.zero_add]
    exact i7
  | reward v =>
    refine ⟨i1, i2, by simpa [paidRecipient, payR] using i3, i4', i5, i6, ?_⟩
    unfold StatusInv
    simp only [paidOwner, List.map_cons, List.map_nil, payO, List.sum_cons, List.sum_nil, Nat.zero_add]
    exact i7
  | slash v t a u vest st h1 h2 h3 h4 h5 =>
    have hwf := slashStake_wf i1 h5
    rcases slashVest_eq h4 with ⟨hs, rfl⟩ | ⟨ow, hs, hle, rfl⟩ | ⟨ow, hs, hle, rfl⟩
    · rw [hs] at i7
      refine ⟨hwf, i2, by simpa [paidRecipient] using i3, i4', i5, i6, ?_⟩
      unfold StatusInv
      simp only [paidOwner, List.map_nil, List.sum_nil, Nat.zero_add, hs]
      exact i7
    · rw [hs] at i7
      refine ⟨hwf, i2, by simpa [paidRecipient] using i3, i4', i5, i6, ?_⟩
      unfold StatusInv
      simp only [paidOwner, List.map_nil, List.sum_nil, Nat.zero_add]
      simp only at i7
      have h := i7.1
      have h' := i7.2.2.2
      refine ⟨?_, i7.2.1, fun hne => i7.2.2.1 (by omega), ?_⟩ <;>
      · simp only [due, Vest.total] at h h' ⊢
        omega
    · rw [hs] at i7
      refine ⟨hwf, i2, by simpa [paidRecipient] using i3, i4', i5, i6, ?_⟩
      unfold StatusInv
      simp only [paidOwner, List.map_nil, List.sum_nil, Nat.zero_add]
      simp only at i7
      have h := i7.1
      have h' := i7.2.2.2
      refine ⟨?_, i7.2.1, fun hne => absurd rfl hne, ?_⟩ <;>
      · simp only [due, Vest.total] at h h' ⊢
        omega
  | donate a =>
    refine ⟨i1, i2, by simpa [paidRecipient] using i3, i4', i5, i6, ?_⟩
    unfold StatusInv
    simp only [paidOwner, List.map_nil, List.sum_nil, Nat.zero_add]
    exact i7
  | slashBonded a h1 =>
    refine ⟨i1, i2, by simpa [paidRecipient] using i3, i4', i5, i6, ?_⟩
    unfold StatusInv
    simp only [paidOwner, List.map_nil, List.sum_nil, Nat.zero_add]
    exact i7
  | slashUnbonding i a =>
    refine ⟨i1, i2, by simpa [paidRecipient] using i3, i4', i5, i6, ?_⟩
    unfold StatusInv
    simp only [paidOwner, List.map_nil, List.sum_nil, Nat.zero_add]
    exact i7

theorem inv_run {m : InstMsg} {b0 b : Block} {w0 w : World} {log : Log} (h0 : Started m b0 w0)
    (hr : sys.Run w0 b0 log w b) : Inv m.total w b log := by
  induction hr with
  | refl => exact (inv_start h0).1
  | step hr hb hs ih => exact inv_step ih hb hs

/-! ## Plain histories -/

theorem balance_bank (w : World) (n x : Nat) : balanceAt { w with bank := n } x + w.bank = balanceAt w x + n := by
  simp only [balanceAt]; omega

theorem plain_step {T B : Nat} {w w' : World} {b : Block} {e : Env} {call : Call} {o : List Pay} {log : Log}
    (iv : Inv T w b log) (ih : PlainInv B w b log) (hb : b.le e.block) (h : step w e call = .ok (w', o))
    (hp : Plain [⟨w, e, call, o, w'⟩]) :
    PlainInv B w' e.block (⟨w, e, call, o, w'⟩ :: log) := by
  have he := step_effect h
  have hsec := StakeTracker.secs_mono hb
  have hmc : (mature w (secs e.block)).c = w.c := rfl
  have hbal : ∀ x, secs e.block ≤ x → balanceAt w x = balanceAt (mature w (secs e.block)) x :=
    fun x hx => (balance_mature w hx).symm
  clear h
  have hp := hp _ List.mem_cons_self
  generalize hm : mature w (secs e.block) = m at he hmc hbal
  obtain ⟨f, g⟩ := ih
  have f : ∀ x, secs e.block ≤ x → match m.c.vest.status with
      | .unfunded => balanceAt m x = 0
      | .funded => balanceAt m x + m.c.vest.claimed + m.c.vest.slashed + totalStaked m.c.staking x = m.c.vest.total
      | .canceled ow => balanceAt m x + totalStaked m.c.staking x = ow + due m.c.vest m.c.vest.total := by
    intro x hx
    have := f x (by omega)
    rw [← hmc, hbal x hx] at this
    exact this
  have g : ∀ x, secs e.block ≤ x →
      balanceAt m x + totalStaked m.c.staking x + paidRecipient log + paidOwner log + registered log =
        B + funded log := by
    intro x hx
    have := g x (by omega)
    rw [← hmc, hbal x hx] at this
    exact this
  have i1 : StakeTracker.WF m.c.staking := by rw [hmc]; exact iv.wf
  have hst := iv.status
  unfold StatusInv at hst
  rw [← hmc] at hst
  cases he with
  | receive a h1 h2 h3 =>
    rw [h1] at hst
    have e1 := hst.2.2.1
    have e2 := hst.2.2.2.1
    have e3 := hst.2.2.2.2
    refine ⟨?_, ?_⟩
    · intro x hx
      have := f x hx
      rw [h1] at this
      have := e2 x
      simp only [balanceAt, Vest.total] at *
      omega
    · intro x hx
      have := g x hx
      simp only [paidRecipient, paidOwner, registered, funded, List.map_nil, List.sum_nil, slashOf, fundOf,
        balanceAt] at *
      omega
  | distribute q r l y hl hy hcy hr h1 h2 h3 h4 =>
    refine ⟨?_, ?_⟩
    · intro x hx
      have hf := f x hx
      have hyt : y ≤ m.c.vest.total := by
        have := iv.good
        rw [← hmc] at this
        exact this.top _ _ hy
      cases hs : m.c.vest.status with
      | unfunded =>
        have := liquid_eq hl
        rw [hs] at this
        simp only at this
        omega
      | funded =>
        rw [hs] at hf
        simp only [balanceAt, Vest.total] at *
        omega
      | canceled ow =>
        rw [hs] at hf
        simp only [balanceAt, Vest.total, due] at *
        omega
    · intro x hx
      have := g x hx
      simp only [paidRecipient, paidOwner, registered, funded, List.map_nil, List.map_cons, List.sum_cons,
        List.sum_nil, slashOf, fundOf, balanceAt, payR, payO] at *
      omega
  | cancel l y r o ow h1 h2 hl hy hcy hr hro how hbank =>
    refine ⟨?_, ?_⟩
    · intro x hx
      have hf := f x hx
      have hf0 := f (secs e.block) (Nat.le_refl _)
      have hlq := liquid_eq hl
      cases hs : m.c.vest.status with
      | unfunded =>
        rw [hs] at hlq hf hst
        simp only at hlq hf hst
        have e2 := hst.2.2.2.1
        have e3 := e2 x
        have e4 := e2 (secs e.block)
        simp only [balanceAt, Vest.total, due, Curve.range] at *
        omega
      | funded =>
        rw [hs] at hlq hf hf0
        simp only at hlq hf hf0
        simp only [balanceAt, Vest.total, due, Curve.range] at *
        omega
      | canceled z => exact absurd hs (h2 z)
    · intro x hx
      have := g x hx
      simp only [paidRecipient, paidOwner, registered, funded, List.map_cons, List.sum_cons,
        slashOf, fundOf, balanceAt, payR, payO, List.map_append, List.sum_append, payR_owner, payR_recipient,
        payO_owner, payO_recipient] at *
      omega
  | withdraw q r l ow o hs hl ho hr h1 h2 h3 h4 =>
    refine ⟨?_, ?_⟩
    · intro x hx
      have hf := f x hx
      rw [hs] at hf
      simp only [balanceAt, Vest.total, due] at *
      omega
    · intro x hx
      have := g x hx
      simp only [paidRecipient, paidOwner, registered, funded, List.map_nil, List.map_cons, List.sum_cons,
        List.sum_nil, slashOf, fundOf, balanceAt, payR, payO] at *
      omega
  | owner a o h1 h2 =>
    refine ⟨f, ?_⟩
    intro x hx
    have := g x hx
    simp only [paidRecipient, paidOwner, registered, funded, List.map_nil, List.sum_nil, slashOf, fundOf,
      Nat.zero_add] at *
    exact this
  | delegate v a st hs h1 h2 h3 =>
    have ht := (StakeTracker.onDelegate_effect i1 h2).2.1
    refine ⟨?_, ?_⟩
    · intro x hx
      have hf := f x hx
      have := ht x
      rw [if_pos hx] at this
      rw [hs] at hf
      simp only [hs]
      simp only [balanceAt, Vest.total] at *
      omega
    · intro x hx
      have := g x hx
      have := ht x
      rw [if_pos hx] at this
      simp only [paidRecipient, paidOwner, registered, funded, List.map_nil, List.map_cons, List.sum_cons,
        List.sum_nil, slashOf, fundOf, balanceAt, payR, payO] at *
      omega
  | redelegate v v' a st hs h1 h2 =>
    have ht := (StakeTracker.onRedelegate_effect i1 h2).2.2.1
    refine ⟨?_, ?_⟩
    · intro x hx
      have hf := f x hx
      rw [hs] at hf
      simp only [hs, ht]
      exact hf
    · intro x hx
      have := g x hx
      simp only [paidRecipient, paidOwner, registered, funded, List.map_nil, List.map_cons, List.sum_cons,
        List.sum_nil, slashOf, fundOf, payR, payO, ht] at *
      simpa [balanceAt] using this
  | undelegate v a st h0 h1 h2 h3 =>
    obtain ⟨_, ha, ht, _⟩ := StakeTracker.onUndelegate_effect i1 h2
    have hbc : ∀ x, balanceAt { m with c := { m.c with staking := st }, bonded := m.bonded - a
                                       pending := (secs e.block + m.c.ubs, a) :: m.pending } x =
        balanceAt m x + if secs e.block + m.c.ubs ≤ x then a else 0 := fun x =>
      balance_cons { m with c := { m.c with staking := st }, bonded := m.bonded - a } (secs e.block + m.c.ubs) a x
    have key : ∀ x, (balanceAt m x + if secs e.block + m.c.ubs ≤ x then a else 0) + totalStaked st x =
        balanceAt m x + totalStaked m.c.staking x := by
      intro x
      have e1 := ht x
      by_cases hx : secs e.block + m.c.ubs ≤ x
      · have e2 := (ha x hx).1
        rw [if_pos hx] at e1 ⊢
        omega
      · rw [if_neg hx] at e1 ⊢
        omega
    refine ⟨?_, ?_⟩
    · intro x hx
      have hf := f x hx
      have hk := key x
      rw [hbc]
      cases hs : m.c.vest.status with
      | unfunded => exact absurd hs h0
      | funded =>
        rw [hs] at hf
        simp only at hf ⊢
        omega
      | canceled ow =>
        rw [hs] at hf
        simp only at hf ⊢
        omega
    · intro x hx
      have := g x hx
      have hk := key x
      rw [hbc]
      simp only [paidRecipient, paidOwner, registered, funded, List.map_nil, List.map_cons, List.sum_cons,
        List.sum_nil, slashOf, fundOf, payR, payO] at *
      omega
  | address h1 =>
    refine ⟨f, ?_⟩
    intro x hx
    have := g x hx
    simp only [paidRecipient, paidOwner, registered, funded, List.map_nil, List.map_cons, List.sum_cons,
      List.sum_nil, slashOf, fundOf, payR, payO, Nat.zero_add] at *
    exact this
  | reward v =>
    refine ⟨f, ?_⟩
    intro x hx
    have := g x hx
    simp only [paidRecipient, paidOwner, registered, funded, List.map_nil, List.map_cons, List.sum_cons,
      List.sum_nil, slashOf, fundOf, payR, payO, Nat.zero_add] at *
    exact this
  | slash v t a u vest st h1 h2 h3 h4 h5 =>
    have hp : u = false := by simpa [plainCall] using hp
    subst hp
    simp only [slashStake, Bool.false_eq_true, if_false] at h5
    obtain ⟨_, ha, ht, _⟩ := StakeTracker.onBondedSlash_effect i1 h5
    have hts : t / 1000000000 ≤ secs e.block := Nat.div_le_div_right h2
    refine ⟨?_, ?_⟩
    · intro x hx
      have hf := f x hx
      have e1 := ht x
      have e2 := (ha x (by omega)).1
      rw [if_pos (by omega)] at e1
      rcases slashVest_eq h4 with ⟨hs, rfl⟩ | ⟨ow, hs, hle, rfl⟩ | ⟨ow, hs, hle, rfl⟩
      · rw [hs] at hf
        simp only [hs]
        simp only [balanceAt, Vest.total] at *
        omega
      · rw [hs] at hf
        simp only [balanceAt, Vest.total, due] at *
        omega
      · rw [hs] at hf
        simp only [balanceAt, Vest.total, due] at *
        omega
    · intro x hx
      have := g x hx
      have e1 := ht x
      have e2 := (ha x (by omega)).1
      rw [if_pos (by omega)] at e1
      simp only [paidRecipient, paidOwner, registered, funded, List.map_nil,
        List.sum_nil, slashOf, fundOf, balanceAt] at *
      omega
  | donate a => cases hp
  | slashBonded a h1 =>
    refine ⟨f, ?_⟩
    intro x hx
    have := g x hx
    simp only [paidRecipient, paidOwner, registered, funded, List.map_nil, List.sum_nil, slashOf, fundOf,
      Nat.zero_add] at *
    exact this
  | slashUnbonding i a => cases hp

theorem plain_run {m : InstMsg} {b0 b : Block} {w0 w : World} {log : Log} (h0 : Started m b0 w0)
    (hr : sys.Run w0 b0 log w b) (hp : Plain log) : PlainInv (initialBank m) w b log := by
  induction hr with
  | refl => exact (inv_start h0).2.1
  | step hr hb hs ih =>
    exact plain_step (inv_run h0 hr) (ih (fun e he => hp e (List.mem_cons_of_mem _ he))) hb hs
      (fun e he => hp e (by
        rcases List.mem_cons.mp he with rfl | he
        · exact List.mem_cons_self
        · cases he))

/-! ## Funding happens once -/

theorem funded_run {m : InstMsg} {b0 b : Block} {w0 w : World} {log : Log} (h0 : Started m b0 w0)
    (hr : sys.Run w0 b0 log w b) :
    initialBank m + funded log ≤ m.total ∧
      (w.c.vest.status = .unfunded → initialBank m + funded log = 0) ∧
      (w.c.vest.status = .funded → initialBank m + funded log = m.total) := by
  induction hr with
  | refl =>
    obtain ⟨_, hi, _⟩ := h0
    unfold instantiate at hi
    obtain ⟨_, h1, hi⟩ := (bind_ok _ _ _).mp hi
    obtain ⟨_, h2, hi⟩ := (bind_ok _ _ _).mp hi
    obtain ⟨_, h3, hi⟩ := (bind_ok _ _ _).mp hi
    obtain ⟨c, h4, hi⟩ := (bind_ok _ _ _).mp hi
    simp only [Except.ok.injEq] at hi
    rw [← hi]
    cases hd : m.denom <;> simp [initialBank, hd, funded, initialStatus]
  | step hr hb hs ih =>
    rename_i w1 w2 b1 log e call out
    have iv := inv_run h0 hr
    have he := step_effect hs
    have hmc : (mature w1 (secs e.block)).c = w1.c := rfl
    generalize mature w1 (secs e.block) = mm at he hmc
    rw [← hmc] at ih
    have ivs := iv.status
    unfold StatusInv at ivs
    rw [← hmc] at ivs
    obtain ⟨i1, i2, i3⟩ := ih
    simp only [funded]
    cases he <;> simp only [fundOf, Nat.zero_add]
    case receive a h1 h2 h3 =>
      rw [h1] at ivs
      have := i2 h1
      have := ivs.1
      refine ⟨by omega, by simp, fun _ => by omega⟩
    case cancel => exact ⟨i1, by simp, by simp⟩
    case withdraw => exact ⟨i1, by simp, by simp⟩
    case slash v t a u vest st h1 h2 h3 h4 h5 =>
      rcases slashVest_eq h4 with ⟨hs, rfl⟩ | ⟨ow, hs, hle, rfl⟩ | ⟨ow, hs, hle, rfl⟩
      · exact ⟨i1, i2, i3⟩
      · exact ⟨i1, by simp, by simp⟩
      · exact ⟨i1, by simp, by simp⟩
    all_goals exact ⟨i1, i2, i3⟩

end Verif.Vesting
