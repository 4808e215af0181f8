import Verif.Proofs.VestingInv
/-!
# C38, C39, C40, C41, C64, C65: vesting payments
-/

namespace Verif.Vesting

open Verif.Spec.Vesting
open Verif.StakeTracker (secs totalStaked)

/-! ## C38: the curve -/

theorem started_curve {m : InstMsg} {b : Block} {w : World} (h : Started m b w) :
    w.c.vest.start / 1000000000 = startSecond m b ∧ m.schedule.intoCurve m.total m.duration = .ok w.c.vest.curve ∧
    m.duration ≠ 0 := by
  obtain ⟨_, hi, _⟩ := h
  unfold instantiate at hi
  obtain ⟨_, h1, hi⟩ := (bind_ok _ _ _).mp hi
  obtain ⟨_, h2, hi⟩ := (bind_ok _ _ _).mp hi
  obtain ⟨_, h3, hi⟩ := (bind_ok _ _ _).mp hi
  obtain ⟨c, h4, hi⟩ := (bind_ok _ _ _).mp hi
  have h3 := (require_ok _ _ _).mp h3
  simp only [decide_eq_true_eq] at h3
  simp only [Except.ok.injEq] at hi
  rw [← hi]
  exact ⟨rfl, h4, h3⟩

/-- The vested amount never decreases over time. -/
theorem C38_monotone {m : InstMsg} {b : Block} {w : World} (h : Started m b w) {t t' y y' : Nat} (ht : t ≤ t')
    (hy : w.c.vest.vested t = .ok y) (hy' : w.c.vest.vested t' = .ok y') : y ≤ y' :=
  (inv_start h).1.good.mono _ _ _ _ (Nat.sub_le_sub_right ht _) hy hy'

/-- Nothing has vested up to the start. -/
theorem C38_start {m : InstMsg} {b : Block} {w : World} (h : Started m b w) {t : Nat} (ht : t ≤ startSecond m b) :
    w.c.vest.vested t = .ok 0 := by
  obtain ⟨h1, h2, h3⟩ := started_curve h
  have := (intoCurve_good h3 h2).2.2.1
  unfold Vest.vested
  rw [h1, Nat.sub_eq_zero_of_le ht]
  exact this

/-- From the end of the schedule on the amount is the total. -/
theorem C38_end {m : InstMsg} {b : Block} {w : World} (h : Started m b w) {t : Nat}
    (ht : startSecond m b + scheduleEnd m.schedule m.duration < t) : w.c.vest.vested t = .ok m.total := by
  obtain ⟨h1, h2, h3⟩ := started_curve h
  unfold Vest.vested
  rw [h1]
  exact (intoCurve_good h3 h2).2.2.2.1 _ (by omega)

/-- In the very second of the end as well. -/
theorem C38_at_end {m : InstMsg} {b : Block} {w : World} (h : Started m b w) {y : Nat}
    (hy : w.c.vest.vested (startSecond m b + scheduleEnd m.schedule m.duration) = .ok y) : y = m.total := by
  obtain ⟨h1, h2, h3⟩ := started_curve h
  unfold Vest.vested at hy
  rw [h1, Nat.add_sub_cancel_left] at hy
  exact (intoCurve_good h3 h2).2.2.2.2 _ hy

theorem vested_step {w w' : World} {e : Env} {call : Call} {o : List Pay} (hg : Good w.c.vest.curve)
    (h : step w e call = .ok (w', o)) {y : Nat} (hy : ∀ t v, secs e.block ≤ t → w.c.vest.vested t = .ok v → y ≤ v) :
    ∀ t v, secs e.block ≤ t → w'.c.vest.vested t = .ok v → y ≤ v := by
  have he := step_effect h
  have hmc : (mature w (secs e.block)).c = w.c := rfl
  generalize mature w (secs e.block) = mm at he hmc
  rw [← hmc] at hy hg
  cases he
  case cancel l y0 r o ow h1 h2 hl hy0 hcy hr hro how hbank =>
    intro t v ht hv
    simp only [Vest.vested, Curve.value, Except.ok.injEq] at hv
    have := hy _ _ (Nat.le_refl _) hy0
    omega
  case slash v t a u vest st h1 h2 h3 h4 h5 =>
    rcases slashVest_eq h4 with ⟨hs, rfl⟩ | ⟨ow, hs, hle, rfl⟩ | ⟨ow, hs, hle, rfl⟩ <;> exact hy
  all_goals exact hy

/-- Neither do payments, slashes or cancellation ever lower the vested amount: what is reported at one point of a
history is not more than what is reported at any later point. -/
theorem C38_history {m : InstMsg} {b0 b1 b2 : Block} {w0 w1 w2 : World} {log1 log2 : Log} (h : Started m b0 w0)
    (hr1 : sys.Run w0 b0 log1 w1 b1) (hr2 : sys.Run w1 b1 log2 w2 b2) {y1 y2 : Nat}
    (hy1 : w1.c.vest.vested (secs b1) = .ok y1) (hy2 : w2.c.vest.vested (secs b2) = .ok y2) : y1 ≤ y2 := by
  have key : ∀ t v, secs b2 ≤ t → w2.c.vest.vested t = .ok v → y1 ≤ v := by
    clear hy2
    induction hr2 with
    | refl =>
      intro t v ht hv
      exact (inv_run h hr1).good.mono _ _ _ _ (Nat.sub_le_sub_right ht _) hy1 hv
    | step hr hb hs ih =>
      refine vested_step (inv_run h (hr1.append hr)).good hs ?_
      intro t v ht hv
      have := StakeTracker.secs_mono hb
      simp only [sys] at this
      exact ih t v (by omega) hv
  exact key _ _ (Nat.le_refl _) hy2

/-! ## C65: whether the amount can be computed -/

/-- The amount is reported whenever total times elapsed seconds fits in 128 bits. -/
theorem C65_defined_partial {m : InstMsg} {b : Block} {w : World} (h : Started m b w) {t : Nat}
    (ht : m.total * (t - startSecond m b) < U128) : ∃ y, w.c.vest.vested t = .ok y := by
  obtain ⟨h1, h2, h3⟩ := started_curve h
  obtain ⟨g1, g2, _⟩ := intoCurve_good h3 h2
  unfold Vest.vested
  rw [h1]
  exact g1.live _ (by rw [g2]; exact ht)

/-! ## C39: payments -/

/-- The recipient was never paid more than has vested, at any moment from the last transaction on. -/
theorem C39_recipient {m : InstMsg} {b0 b : Block} {w0 w : World} {log : Log} (h : Started m b0 w0)
    (hr : sys.Run w0 b0 log w b) {t y : Nat} (ht : secs b ≤ t) (hy : w.c.vest.vested t = .ok y) :
    paidRecipient log ≤ y := by
  have iv := inv_run h hr
  rw [← iv.claimed]
  exact iv.below _ _ ht hy

/-- Payments to recipient and owner together never exceed the total. -/
theorem C39_total {m : InstMsg} {b0 b : Block} {w0 w : World} {log : Log} (h : Started m b0 w0)
    (hr : sys.Run w0 b0 log w b) : paidRecipient log + paidOwner log ≤ m.total := by
  have iv := inv_run h hr
  have h1 := iv.claimed
  have h2 := iv.cap
  have h3 := iv.totalLe
  have hst := iv.status
  unfold StatusInv at hst
  cases hs : w.c.vest.status with
  | unfunded => rw [hs] at hst; have := hst.2.1; omega
  | funded => rw [hs] at hst; have := hst.2; omega
  | canceled ow => rw [hs] at hst; have := hst.1; omega

/-- In plain histories nothing is lost: what was paid, what was registered as slashed, the balance and the staked
tokens always add up to what was put in, and this is at most the total. Missing: histories in which tokens are sent to
the contract unasked or unbonding tokens are slashed. -/
theorem C39_slashes_partial {m : InstMsg} {b0 b : Block} {w0 w : World} {log : Log} (h : Started m b0 w0)
    (hr : sys.Run w0 b0 log w b) (hp : Plain log) {x : Nat} (hx : secs b ≤ x) :
    paidRecipient log + paidOwner log + registered log + balanceAt w x + totalStaked w.c.staking x =
      initialBank m + funded log ∧
    paidRecipient log + paidOwner log + registered log ≤ m.total := by
  have h1 := (plain_run h hr hp).flow x hx
  have h2 := (funded_run h hr).1
  omega

/-! ## C40: cancellation -/

/-- A cancellation of a funded vest leaves the vested part to the recipient and the rest to the owner, exactly. -/
theorem C40_split {m : InstMsg} {b0 b : Block} {w0 w w' : World} {log : Log} {e : Env} {o : List Pay}
    (h : Started m b0 w0) (hr : sys.Run w0 b0 log w b) (hf : w.c.vest.status = .funded)
    (hs : step w e (.msg .cancel) = .ok (w', o)) :
    ∃ y ow, w.c.vest.vested (secs e.block) = .ok y ∧ w'.c.vest.status = .canceled ow ∧
      w'.c.vest.slashed = w.c.vest.slashed ∧
      paidRecipient (⟨w, e, .msg .cancel, o, w'⟩ :: log) + due w'.c.vest y =
        max (paidRecipient log) (y - w.c.vest.slashed) ∧
      paidRecipient (⟨w, e, .msg .cancel, o, w'⟩ :: log) + due w'.c.vest y +
        (paidOwner (⟨w, e, .msg .cancel, o, w'⟩ :: log) + ow) + w.c.vest.slashed = m.total := by
  have iv := inv_run h hr
  have he := step_effect hs
  have hmc : (mature w (secs e.block)).c = w.c := rfl
  generalize mature w (secs e.block) = mm at he hmc
  rw [← hmc] at hf
  have hcl := iv.claimed
  have hst := iv.status
  unfold StatusInv at hst
  rw [← hmc] at hcl hst
  cases he with
  | cancel l y r o ow h1 h2 hl hy hcy hr hro how hbank =>
    rw [hf] at hst
    have hlq := liquid_eq hl
    rw [hf] at hlq
    simp only at hlq hst
    rw [← hmc]
    have e1 := hst.1
    have e2 := hst.2
    refine ⟨y, ow, hy, rfl, rfl, ?_, ?_⟩
    · simp only [paidRecipient, List.map_cons, List.map_append, payR, List.sum_cons, List.sum_append,
        payR_owner, payR_recipient, due] at *
      omega
    · simp only [paidRecipient, paidOwner, List.map_cons, List.map_append, payR, payO, List.sum_cons,
        List.sum_append, payR_owner, payR_recipient, payO_owner, payO_recipient, due] at *
      omega

/-- A vest that was never funded can only be canceled while nothing has vested, and then nobody is owed anything. -/
theorem C40_unfunded {m : InstMsg} {b0 b : Block} {w0 w w' : World} {log : Log} {e : Env} {o : List Pay}
    (h : Started m b0 w0) (hr : sys.Run w0 b0 log w b) (hf : w.c.vest.status = .unfunded)
    (hs : step w e (.msg .cancel) = .ok (w', o)) :
    w.c.vest.vested (secs e.block) = .ok 0 ∧ w'.c.vest.status = .canceled 0 ∧ o = [.distribution] := by
  have iv := inv_run h hr
  have he := step_effect hs
  have hmc : (mature w (secs e.block)).c = w.c := rfl
  generalize mature w (secs e.block) = mm at he hmc
  rw [← hmc] at hf
  have hst := iv.status
  unfold StatusInv at hst
  rw [← hmc] at hst
  cases he with
  | cancel l y r o ow h1 h2 hl hy hcy hr hro how hbank =>
    rw [hf] at hst
    have hlq := liquid_eq hl
    rw [hf] at hlq
    simp only at hlq hst
    have e1 := hst.2.2.1
    have e2 := hst.2.2.2.1 (secs e.block)
    have e3 := hst.2.2.2.2
    have hy0 : y = 0 := by omega
    have ho0 : ow = 0 := by omega
    have hr0 : r = 0 := by omega
    have hoo : o = 0 := by omega
    subst hy0 ho0 hr0 hoo
    rw [← hmc]
    exact ⟨hy, rfl, rfl⟩

/-- A canceled vest stays canceled and vests no further, whatever happens. -/
theorem C40_forever {w w1 w2 : World} {b1 b2 : Block} {log : Log} {e : Env} {o : List Pay}
    (hs : step w e (.msg .cancel) = .ok (w1, o)) (hr : sys.Run w1 b1 log w2 b2) :
    ∃ y ow, w.c.vest.vested (secs e.block) = .ok y ∧ w2.c.vest.status = .canceled ow ∧
      ∀ t, w2.c.vest.vested t = .ok y := by
  have start : ∃ y ow, w.c.vest.vested (secs e.block) = .ok y ∧ w1.c.vest.status = .canceled ow ∧
      w1.c.vest.curve = .constant y := by
    have he := step_effect hs
    have hmc : (mature w (secs e.block)).c = w.c := rfl
    generalize mature w (secs e.block) = mm at he hmc
    cases he with
    | cancel l y r o ow h1 h2 hl hy hcy hr hro how hbank =>
      rw [← hmc]
      exact ⟨y, ow, hy, rfl, rfl⟩
  obtain ⟨y, ow, hy, hst, hc⟩ := start
  have key : (∃ ow, w2.c.vest.status = .canceled ow) ∧ w2.c.vest.curve = .constant y := by
    clear hs
    induction hr with
    | refl => exact ⟨⟨ow, hst⟩, hc⟩
    | step hr hb hs ih =>
      rename_i w3 w4 b3 log e call out
      have he := step_effect hs
      have hmc : (mature w3 (secs e.block)).c = w3.c := rfl
      generalize mature w3 (secs e.block) = mm at he hmc
      rw [← hmc] at ih
      obtain ⟨⟨ow, ih1⟩, ih2⟩ := ih
      cases he
      case receive a h1 h2 h3 => rw [h1] at ih1; cases ih1
      case cancel l y r o ow' h1 h2 hl hy hcy hr hro how hbank => exact absurd ih1 (h2 ow)
      case withdraw => exact ⟨⟨_, rfl⟩, ih2⟩
      case slash v t a u vest st h1 h2 h3 h4 h5 =>
        rcases slashVest_eq h4 with ⟨hf, rfl⟩ | ⟨ow, hf, hle, rfl⟩ | ⟨ow, hf, hle, rfl⟩
        · rw [hf] at ih1; cases ih1
        · exact ⟨⟨_, rfl⟩, ih2⟩
        · exact ⟨⟨_, rfl⟩, ih2⟩
      all_goals exact ⟨⟨ow, ih1⟩, ih2⟩
  obtain ⟨⟨ow2, k1⟩, k2⟩ := key
  refine ⟨y, ow2, hy, k1, fun t => ?_⟩
  unfold Vest.vested
  rw [k2]
  rfl

/-! ## C41: nothing underflows -/

theorem liquid_funded {v : Vest} {st l : Nat} (hs : v.status = .funded) (h : l + v.claimed + v.slashed + st = v.total) :
    liquid v st = .ok l := by
  unfold liquid
  rw [hs]
  simp only
  rw [(sub128_ok v.total v.claimed _).mpr ⟨by omega, rfl⟩, ok_bind,
    (sub128_ok (v.total - v.claimed) st _).mpr ⟨by omega, rfl⟩, ok_bind]
  exact (sub128_ok _ _ _).mpr ⟨by omega, by omega⟩

theorem liquid_canceled {v : Vest} {st ow : Nat} (hs : v.status = .canceled ow) (h1 : v.claimed ≤ v.total)
    (h2 : st ≤ ow + (v.total - v.claimed)) (h3 : ow + (v.total - v.claimed) < U128) :
    liquid v st = .ok (ow + (v.total - v.claimed) - st) := by
  unfold liquid
  rw [hs]
  simp only
  rw [(sub128_ok v.total v.claimed _).mpr ⟨by omega, rfl⟩, ok_bind, (add128_ok _ _ _).mpr ⟨h3, rfl⟩, ok_bind]
  exact (sub128_ok _ _ _).mpr ⟨h2, rfl⟩

/-- In plain histories the liquid amount exists at every later moment: it is the balance of the contract while the vest
is not canceled, and at least the balance afterwards. -/
theorem C41_liquid_partial {m : InstMsg} {b0 b : Block} {w0 w : World} {log : Log} (h : Started m b0 w0)
    (hr : sys.Run w0 b0 log w b) (hp : Plain log) {x : Nat} (hx : secs b ≤ x) :
    ∃ l, liquid w.c.vest (totalStaked w.c.staking x) = .ok l ∧ balanceAt w x ≤ l ∧
      ((∀ ow, w.c.vest.status ≠ .canceled ow) ∨ w.c.vest.slashed = 0 → l = balanceAt w x) := by
  have iv := inv_run h hr
  have hf := (plain_run h hr hp).funds x hx
  have hst := iv.status
  unfold StatusInv at hst
  have hcap := iv.cap
  cases hs : w.c.vest.status with
  | unfunded =>
    rw [hs] at hf
    simp only at hf
    refine ⟨0, ?_, by omega, fun _ => by omega⟩
    unfold liquid
    rw [hs]
  | funded =>
    rw [hs] at hf
    simp only at hf
    exact ⟨balanceAt w x, liquid_funded hs (by omega), Nat.le_refl _, fun _ => rfl⟩
  | canceled ow =>
    rw [hs] at hf hst
    simp only [due] at hf hst
    refine ⟨_, liquid_canceled hs hcap (by omega) ?_, by omega, ?_⟩
    · have := h.1
      have := hst.2.2.2
      omega
    · rintro (h | h)
      · exact absurd rfl (h ow)
      · omega

/-- In plain histories the contract and its stakes hold exactly what may still be paid. -/
theorem C41_backed_partial {m : InstMsg} {b0 b : Block} {w0 w : World} {log : Log} (h : Started m b0 w0)
    (hr : sys.Run w0 b0 log w b) (hp : Plain log) {x : Nat} (hx : secs b ≤ x) :
    balanceAt w x + totalStaked w.c.staking x = remaining w.c.vest := by
  have iv := inv_run h hr
  have hf := (plain_run h hr hp).funds x hx
  have hst := iv.status
  unfold StatusInv at hst
  unfold remaining
  cases hs : w.c.vest.status with
  | unfunded =>
    rw [hs] at hf hst
    simp only at hf hst ⊢
    have := hst.2.2.2.1 x
    omega
  | funded =>
    rw [hs] at hf
    simp only at hf ⊢
    omega
  | canceled ow => rw [hs] at hf; exact hf

theorem plain_cons {log : Log} {ev : Ev World Env Call (List Pay)} (hp : Plain log) (h : Plain [ev]) :
    Plain (ev :: log) := by
  intro e he
  rcases List.mem_cons.mp he with rfl | he
  · exact h _ List.mem_cons_self
  · exact hp e he

/-- A registered slash of bonded tokens reduces what may still be paid by exactly its amount. -/
theorem C41_slash_partial {m : InstMsg} {b0 b : Block} {w0 w w' : World} {log : Log} {e : Env} {o : List Pay}
    {v t a : Nat} (h : Started m b0 w0) (hr : sys.Run w0 b0 log w b) (hp : Plain log) (hb : b.le e.block)
    (hs : step w e (.msg (.registerSlash v t a false)) = .ok (w', o)) :
    remaining w'.c.vest + a = remaining w.c.vest := by
  have hr' : sys.Run w0 b0 (⟨w, e, .msg (.registerSlash v t a false), o, w'⟩ :: log) w' e.block := .step hr hb hs
  have hp' : Plain (⟨w, e, .msg (.registerSlash v t a false), o, w'⟩ :: log) := by
    refine plain_cons hp ?_
    intro ev hev
    rcases List.mem_cons.mp hev with rfl | hev
    · rfl
    · cases hev
  have hx := StakeTracker.secs_mono hb
  have h1 := C41_backed_partial h hr hp hx
  have h2 := C41_backed_partial h hr' hp' (Nat.le_refl _)
  have h3 := C39_slashes_partial h hr hp hx
  have h4 := C39_slashes_partial h hr' hp' (Nat.le_refl _)
  have e1 : o = [] := by
    have he := step_effect hs
    generalize mature w (secs e.block) = mm at he
    cases he
    rfl
  subst e1
  simp only [paidRecipient, paidOwner, registered, funded, slashOf, fundOf, List.map_nil, List.sum_nil,
    Nat.zero_add] at h3 h4
  omega

theorem step_distribute {w : World} {e : Env} {r l c : Nat}
    (hl : liquid w.c.vest (totalStaked w.c.staking (secs e.block)) = .ok l)
    (hc : claimable w.c.vest (secs e.block) = .ok c) (h1 : r ≤ l) (h2 : r ≤ c) (h3 : r ≠ 0)
    (h4 : w.c.vest.claimed + r < U128) (h5 : r ≤ balanceAt w (secs e.block)) :
    ∃ w', step w e (.msg (.distribute (some r))) = .ok (w', [.toRecipient r]) := by
  have hadd := (add128_ok w.c.vest.claimed r _).mpr ⟨h4, rfl⟩
  have hsub := (sub128_ok (mature w (secs e.block)).bank r _).mpr ⟨h5, rfl⟩
  have hreq : (decide (r ≤ min l c) && decide (r ≠ 0)) = true := by
    simp only [Bool.and_eq_true, decide_eq_true_eq]; omega
  have hmc : (mature w (secs e.block)).c = w.c := rfl
  simp only [step, exec, distribute, distributable, hmc, hl, hc, ok_bind, Option.getD_some, hadd, hreq,
    require, if_true, settle, settle1, incoming, Nat.add_zero, hsub]
  exact ⟨_, rfl⟩

/-- In plain histories whatever is due and in the contract can be paid to the recipient at any later time. -/
theorem C41_distribute_partial {m : InstMsg} {b0 b : Block} {w0 w : World} {log : Log} (h : Started m b0 w0)
    (hr : sys.Run w0 b0 log w b) (hp : Plain log) {e : Env} (hb : b.le e.block) {y r : Nat}
    (hy : w.c.vest.vested (secs e.block) = .ok y) (h1 : r ≤ due w.c.vest y) (h2 : r ≤ balanceAt w (secs e.block))
    (h3 : r ≠ 0) : ∃ w', step w e (.msg (.distribute (some r))) = .ok (w', [.toRecipient r]) := by
  have iv := inv_run h hr
  have hx := StakeTracker.secs_mono hb
  obtain ⟨l, hl, hle, _⟩ := C41_liquid_partial h hr hp hx
  have hcy := iv.below _ _ hx hy
  have hc := claimable_ok hy hcy
  refine step_distribute hl hc (by omega) h1 h3 ?_ h2
  have := iv.good.top _ _ hy
  have := iv.totalLe
  have := h.1
  simp only [due, Vest.total] at *
  omega

/-- In plain histories whatever the owner of a canceled vest is owed and in the contract can be paid to them. -/
theorem C41_withdraw_partial {m : InstMsg} {b0 b : Block} {w0 w : World} {log : Log} (h : Started m b0 w0)
    (hr : sys.Run w0 b0 log w b) (hp : Plain log) {e : Env} (hb : b.le e.block) {ow r : Nat}
    (hs : w.c.vest.status = .canceled ow) (h1 : r ≤ ow) (h2 : r ≤ balanceAt w (secs e.block)) (h3 : r ≠ 0) :
    ∃ o w', w.c.owner.owner = some o ∧
      step w e (.msg (.withdrawCanceled (some r))) = .ok (w', [.toOwner o r]) := by
  have iv := inv_run h hr
  have hx := StakeTracker.secs_mono hb
  obtain ⟨l, hl, hle, _⟩ := C41_liquid_partial h hr hp hx
  have hst := iv.status
  unfold StatusInv at hst
  rw [hs] at hst
  have hne := hst.2.2.1 (by omega)
  cases ho : w.c.owner.owner with
  | none => exact absurd ho hne
  | some o =>
    have hsub := (sub128_ok (mature w (secs e.block)).bank r _).mpr ⟨h2, rfl⟩
    have hreq : (decide (r ≤ min l ow) && decide (r ≠ 0)) = true := by
      simp only [Bool.and_eq_true, decide_eq_true_eq]; omega
    have hmc : (mature w (secs e.block)).c = w.c := rfl
    refine ⟨o, ?_⟩
    simp only [step, exec, hmc, ho, orErr, ok_bind, withdraw, hs, hl, Option.getD_some, hreq, require, if_true,
      settle, settle1, incoming, Nat.add_zero, hsub]
    exact ⟨_, trivial, rfl⟩

theorem settle_owner_live (t o a : Nat) (w : World) (rest : List Pay) (h : a ≤ w.bank) :
    settle t (payOwnerIf o a ++ rest) w = settle t rest { w with bank := w.bank - a } := by
  unfold payOwnerIf
  split
  · have hsub := (sub128_ok w.bank a _).mpr ⟨h, rfl⟩
    simp only [List.cons_append, List.nil_append]
    rw [settle]
    simp only [settle1, hsub, ok_bind]
  · rename_i ha
    have : a = 0 := by omega
    subst this
    rfl

theorem settle_recipient_live (t a : Nat) (w : World) (h : a ≤ w.bank) :
    settle t (payRecipientIf a) w = .ok { w with bank := w.bank - a } := by
  unfold payRecipientIf
  split
  · have hsub := (sub128_ok w.bank a _).mpr ⟨h, rfl⟩
    rw [settle]
    simp only [settle1, hsub, ok_bind, settle]
  · rename_i ha
    have : a = 0 := by omega
    subst this
    rfl

/-- In plain histories the owner of a funded vest can cancel it whenever the vested amount can be computed. -/
theorem C41_cancel_partial {m : InstMsg} {b0 b : Block} {w0 w : World} {log : Log} (h : Started m b0 w0)
    (hr : sys.Run w0 b0 log w b) (hp : Plain log) {e : Env} (hb : b.le e.block) {y : Nat}
    (hs : w.c.vest.status = .funded) (ho : w.c.owner.owner = some e.sender)
    (hy : w.c.vest.vested (secs e.block) = .ok y) :
    ∃ w' o, step w e (.msg .cancel) = .ok (w', o) := by
  have iv := inv_run h hr
  have hx := StakeTracker.secs_mono hb
  obtain ⟨l, hl, _, hle⟩ := C41_liquid_partial h hr hp hx
  have hle := hle (Or.inl (by simp [hs]))
  have hlq := liquid_eq hl
  rw [hs] at hlq
  simp only at hlq
  have hcy := iv.below _ _ hx hy
  have hc := claimable_ok hy hcy
  have ht := iv.good.top _ _ hy
  have htl := iv.totalLe
  have hT := h.1
  have hmc : (mature w (secs e.block)).c = w.c := rfl
  have hadd := (add128_ok w.c.vest.claimed (min (due w.c.vest y) l) _).mpr
    ⟨by simp only [due, Vest.total] at *; omega, rfl⟩
  have hc2 : claimable { w.c.vest with claimed := w.c.vest.claimed + min (due w.c.vest y) l } (secs e.block) =
      .ok (y - (w.c.vest.claimed + min (due w.c.vest y) l) - w.c.vest.slashed) :=
    claimable_ok (v := { w.c.vest with claimed := w.c.vest.claimed + min (due w.c.vest y) l }) hy
      (by simp only [due]; omega)
  have hsub := (sub128_ok (totalStaked w.c.staking (secs e.block))
    (y - (w.c.vest.claimed + min (due w.c.vest y) l) - w.c.vest.slashed) _).mpr
    ⟨by simp only [due, Vest.total] at *; omega, rfl⟩
  have hy2 : Vest.vested { w.c.vest with claimed := w.c.vest.claimed + min (due w.c.vest y) l } (secs e.block) =
      .ok y := hy
  have hopen : w.c.vest.status.open = true := by rw [hs]; rfl
  simp only [step, exec, hmc, Ownership.assertOwner, ho, decide_true, require, if_true, ok_bind, cancel, hl, hc, hadd,
    hc2, hsub, hy2, hopen]
  unfold settle
  simp only [settle1, ok_bind, incoming, Nat.add_zero]
  rw [settle_owner_live, settle_recipient_live, ok_bind]
  · exact ⟨_, _, rfl⟩
  · simp only [balance_now]; omega
  · simp only [balance_now]; omega

/-! ## C64: who can do what -/

/-- Only the owner cancels. -/
theorem C64_cancel {w w' : World} {e : Env} {o : List Pay} (h : step w e (.msg .cancel) = .ok (w', o)) :
    w.c.owner.owner = some e.sender := by
  have he := step_effect h
  have hmc : (mature w (secs e.block)).c = w.c := rfl
  rw [← hmc]
  cases he; assumption

/-- Only the owner registers slashes, and never ones that lie in the future. -/
theorem C64_slash {w w' : World} {e : Env} {o : List Pay} {v t a : Nat} {u : Bool}
    (h : step w e (.msg (.registerSlash v t a u)) = .ok (w', o)) :
    w.c.owner.owner = some e.sender ∧ t ≤ e.block.time ∧ a ≠ 0 := by
  have he := step_effect h
  have hmc : (mature w (secs e.block)).c = w.c := rfl
  rw [← hmc]
  cases he with
  | slash _ _ _ _ _ _ h1 h2 h3 => exact ⟨h1, h2, h3⟩

/-- Only the recipient stakes, and only while the vest is funded and not canceled. -/
theorem C64_delegate {w w' : World} {e : Env} {o : List Pay} {v a : Nat}
    (h : step w e (.msg (.delegate v a)) = .ok (w', o)) :
    w.c.vest.status = .funded ∧ e.sender = w.c.vest.recipient := by
  have he := step_effect h
  have hmc : (mature w (secs e.block)).c = w.c := rfl
  rw [← hmc]
  cases he with
  | delegate _ _ _ h1 h2 => exact ⟨h1, h2⟩

/-- Only the recipient moves stakes between validators. -/
theorem C64_redelegate {w w' : World} {e : Env} {o : List Pay} {v v' a : Nat}
    (h : step w e (.msg (.redelegate v v' a)) = .ok (w', o)) :
    w.c.vest.status = .funded ∧ e.sender = w.c.vest.recipient := by
  have he := step_effect h
  have hmc : (mature w (secs e.block)).c = w.c := rfl
  rw [← hmc]
  cases he with
  | redelegate _ _ _ _ h1 h2 => exact ⟨h1, h2⟩

/-- Before cancellation only the recipient unstakes. -/
theorem C64_undelegate {w w' : World} {e : Env} {o : List Pay} {v a : Nat}
    (h : step w e (.msg (.undelegate v a)) = .ok (w', o)) (hs : w.c.vest.status = .funded) :
    e.sender = w.c.vest.recipient := by
  have he := step_effect h
  have hmc : (mature w (secs e.block)).c = w.c := rfl
  rw [← hmc] at hs ⊢
  cases he with
  | undelegate _ _ _ h1 h2 => exact h2 hs

theorem mem_payOwnerIf {p : Pay} {o a : Nat} (h : p ∈ payOwnerIf o a) : p = .toOwner o a := by
  unfold payOwnerIf at h
  split at h
  · simpa using h
  · cases h

theorem mem_payRecipientIf {p : Pay} {a : Nat} (h : p ∈ payRecipientIf a) : p = .toRecipient a := by
  unfold payRecipientIf at h
  split at h
  · simpa using h
  · cases h

/-- The owner is the only other party that is ever paid, and only by the cancellation or by withdrawing from a
canceled vest. -/
theorem C64_owner_paid {w w' : World} {e : Env} {call : Call} {o : List Pay} {x : Addr} {a : Nat}
    (h : step w e call = .ok (w', o)) (hp : Pay.toOwner x a ∈ o) :
    w.c.owner.owner = some x ∧ (call = .msg .cancel ∨ ∃ q ow, call = .msg (.withdrawCanceled q) ∧
      w.c.vest.status = .canceled ow) := by
  have he := step_effect h
  have hmc : (mature w (secs e.block)).c = w.c := rfl
  rw [← hmc]
  generalize mature w (secs e.block) = mm at he
  cases he
  case cancel h1 h2 hl hy hcy hr hro how hbank =>
    refine ⟨?_, Or.inl rfl⟩
    rcases List.mem_cons.mp hp with hp | hp
    · cases hp
    · rcases List.mem_append.mp hp with hp | hp
      · have := mem_payOwnerIf hp
        simp only [Pay.toOwner.injEq] at this
        rw [this.1]; exact h1
      · have := mem_payRecipientIf hp
        cases this
  case withdraw q r l ow o hs hl ho hr h1 h2 h3 h4 =>
    simp only [List.mem_cons, Pay.toOwner.injEq, List.not_mem_nil, or_false] at hp
    rw [hp.1]
    exact ⟨ho, Or.inr ⟨q, ow, rfl, hs⟩⟩
  all_goals simp at hp

/-- As long as the owner of a canceled vest is owed anything there is an owner. -/
theorem C64_owner_kept {m : InstMsg} {b0 b : Block} {w0 w : World} {log : Log} (h : Started m b0 w0)
    (hr : sys.Run w0 b0 log w b) {ow : Nat} (hs : w.c.vest.status = .canceled ow) (ho : ow ≠ 0) :
    ∃ o, w.c.owner.owner = some o := by
  have hst := (inv_run h hr).status
  unfold StatusInv at hst
  rw [hs] at hst
  exact Option.ne_none_iff_exists'.mp (hst.2.2.1 ho)

/-! ## Concrete cases -/

/-- The start of second `n`. -/
def sec (n : Nat) : Block := ⟨n, 1000000000 * n⟩

def exM : InstMsg :=
  { owner := some 1, recipient := 2, total := 100, denom := .native true, schedule := .saturatingLinear
    start := some 0, duration := 100, ubs := 10 }

def world (m : InstMsg) : World :=
  { c := (match instantiate (sec 0) m with
      | .ok s => s
      | .error _ => ⟨⟨.constant 0, 0, .unfunded, 0, .native true, 0, 0⟩, StakeTracker.empty, ⟨none, none, none⟩, 0⟩)
    bank := initialBank m, bonded := 0, pending := [] }

theorem exM_started : Started exM (sec 0) (world exM) := by
  refine ⟨by decide +kernel, ?_, rfl, rfl, rfl⟩
  decide +kernel

/-- A piecewise schedule: nothing until second 10, 40 of 100 at second 20, all at second 60. -/
theorem C38_example : Started { exM with schedule := .piecewiseLinear [(10, 0), (20, 40), (60, 100)] } (sec 0)
      (world { exM with schedule := .piecewiseLinear [(10, 0), (20, 40), (60, 100)] }) ∧
    [0, 10, 15, 20, 30, 60, 1000].map
      (fun t => ((world { exM with schedule := .piecewiseLinear [(10, 0), (20, 40), (60, 100)] }).c.vest.vested t).toOption)
      = [some 0, some 0, some 20, some 40, some 55, some 100, some 100] := by
  refine ⟨⟨by decide +kernel, ?_, rfl, rfl, rfl⟩, ?_⟩ <;> decide +kernel

def E (n a : Nat) : Env := { block := sec n, sender := a, canRedelegate := some 1000 }

/-- Distribution at 20, staking of 60, a slash of 10, cancellation at 50, unbonding, and the rest is paid out. -/
def exCalls : List (Env × Call) :=
  [(E 20 7, .msg (.distribute none)), (E 20 2, .msg (.delegate 5 60)), (E 30 2, .msg (.redelegate 5 6 20)),
   (E 40 9, .slashBonded 10), (E 40 1, .msg (.registerSlash 5 (1000000000 * 39) 10 false)),
   (E 50 1, .msg .cancel), (E 50 8, .msg (.undelegate 6 20)), (E 50 8, .msg (.undelegate 5 30)),
   (E 60 8, .msg (.withdrawCanceled (some 30))), (E 61 8, .msg (.withdrawCanceled none))]

/-- The hypotheses of the theorems on plain histories are met, and the amounts are as expected: the recipient has 40 =
50 vested less the slash of 10, the owner the other 50. -/
theorem C39_example : ∃ w b log, sys.Run (world exM) (sec 0) log w b ∧ Plain log ∧
    (paidRecipient log, paidOwner log, registered log, w.bank, w.c.vest.status) = (40, 50, 10, 0, .canceled 0) := by
  have h : sys.check (world exM) (sec 0) exCalls (fun w _ log =>
      decide (paidRecipient log = 40 ∧ paidOwner log = 50 ∧ registered log = 10 ∧ w.bank = 0 ∧
        w.c.vest.status = .canceled 0) &&
      log.all (fun e => plainCall e.call)) = true := by decide +kernel
  obtain ⟨w, b, log, hr, h⟩ := Sys.check_run h
  rw [Bool.and_eq_true, decide_eq_true_eq, List.all_eq_true] at h
  obtain ⟨⟨h1, h2, h3, h4, h5⟩, hall⟩ := h
  refine ⟨w, b, log, hr, ?_, by rw [h1, h2, h3, h4, h5]⟩
  exact hall

/-- Just before the cancellation the vest is funded, so that the theorems on cancellation apply; the cancellation pays
20 to the recipient and leaves 30 to the owner. -/
theorem C40_example : ∃ w b log, sys.Run (world exM) (sec 0) log w b ∧ w.c.vest.status = .funded ∧
    ∃ w', step w (E 50 1) (.msg .cancel) = .ok (w', [.distribution, .toRecipient 20]) ∧
      w'.c.vest.status = .canceled 50 := by
  have h : sys.check (world exM) (sec 0) (exCalls.take 5) (fun w _ _ =>
      decide (w.c.vest.status = .funded) && (match step w (E 50 1) (.msg .cancel) with
        | .ok (w', o) => decide (o = [.distribution, .toRecipient 20] ∧ w'.c.vest.status = .canceled 50)
        | .error _ => false)) = true := by decide +kernel
  obtain ⟨w, b, log, hr, h⟩ := Sys.check_run h
  rw [Bool.and_eq_true, decide_eq_true_eq] at h
  refine ⟨w, b, log, hr, h.1, ?_⟩
  have h2 := h.2
  split at h2
  · rename_i w' o hs
    simp only [decide_eq_true_eq] at h2
    rw [hs]
    exact ⟨w', by rw [h2.1], h2.2⟩
  · cases h2

/-! ## Findings -/

/-- A transaction fails. -/
def fails (w : World) (e : Env) (c : Call) : Bool :=
  match step w e c with
  | .ok _ => false
  | .error _ => true

theorem fails_iff {w : World} {e : Env} {c : Call} (h : fails w e c = true) : ∀ r, step w e c ≠ .ok r := by
  intro r hr
  unfold fails at h
  rw [hr] at h
  cases h

/-- C39, negation for histories with unasked transfers: somebody sends 100 tokens, the recipient stakes 200 and the
whole stake is slashed, so that the registered slash alone exceeds the total. -/
theorem C39_slashes_witness : ∃ w b log, sys.Run (world exM) (sec 0) log w b ∧
    exM.total < paidRecipient log + paidOwner log + registered log := by
  have h : sys.check (world exM) (sec 0)
      [(E 1 9, .donate 100), (E 1 2, .msg (.delegate 5 200)), (E 2 9, .slashBonded 200),
       (E 2 1, .msg (.registerSlash 5 (1000000000 * 2) 200 false))]
      (fun _ _ log => decide (exM.total < paidRecipient log + paidOwner log + registered log)) = true := by
    decide +kernel
  obtain ⟨w, b, log, hr, h⟩ := Sys.check_run h
  exact ⟨w, b, log, hr, by simpa using h⟩

/-- C41, negation: anyone can send one token to the contract; a recipient who then stakes one token more than the total
makes the liquid amount underflow, and the owner cannot cancel. -/
theorem C41_donation_witness : ∃ w b log, sys.Run (world exM) (sec 0) log w b ∧ w.c.vest.status = .funded ∧
    w.c.owner.owner = some 1 ∧ (∀ r, step w (E 50 1) (.msg .cancel) ≠ .ok r) ∧
    (∀ r, step w (E 500 1) (.msg .cancel) ≠ .ok r) ∧ (∀ r, step w (E 50 2) (.msg (.distribute none)) ≠ .ok r) := by
  have h : sys.check (world exM) (sec 0) [(E 1 2, .donate 1), (E 1 2, .msg (.delegate 5 101))]
      (fun w _ _ => decide (w.c.vest.status = .funded ∧ w.c.owner.owner = some 1) &&
        (fails w (E 50 1) (.msg .cancel) && (fails w (E 500 1) (.msg .cancel) &&
          fails w (E 50 2) (.msg (.distribute none))))) = true := by
    decide +kernel
  obtain ⟨w, b, log, hr, h⟩ := Sys.check_run h
  simp only [Bool.and_eq_true, decide_eq_true_eq] at h
  exact ⟨w, b, log, hr, h.1.1, h.1.2, fails_iff h.2.1, fails_iff h.2.2.1, fails_iff h.2.2.2⟩

/-- C41, negation: two unbondings and a slash of the unbonding tokens that is registered truthfully. Between the ends of
the two unbondings staked and slashed tokens together exceed the total, and neither a distribution nor a cancellation
is possible, although tokens have come back and 13 are vested. -/
theorem C41_unbonding_witness : ∃ w b log, sys.Run (world exM) (sec 0) log w b ∧
    balanceAt w 13 = 20 ∧ (∀ r, step w (E 13 2) (.msg (.distribute none)) ≠ .ok r) ∧
    (∀ r, step w (E 13 1) (.msg .cancel) ≠ .ok r) := by
  have h : sys.check (world exM) (sec 0)
      [(E 1 2, .msg (.delegate 5 100)), (E 2 2, .msg (.undelegate 5 50)), (E 4 2, .msg (.undelegate 5 50)),
       (E 5 9, .slashUnbonding 0 30), (E 5 9, .slashUnbonding 1 30),
       (E 6 1, .msg (.registerSlash 5 (1000000000 * 5) 60 true))]
      (fun w _ _ => decide (balanceAt w 13 = 20) && (fails w (E 13 2) (.msg (.distribute none)) &&
        fails w (E 13 1) (.msg .cancel))) = true := by
    decide +kernel
  obtain ⟨w, b, log, hr, h⟩ := Sys.check_run h
  simp only [Bool.and_eq_true, decide_eq_true_eq] at h
  exact ⟨w, b, log, hr, h.1, fails_iff h.2.1, fails_iff h.2.2⟩

/-- After a cancellation with earlier slashes the reported distributable amount (30) exceeds the balance (20), so that a
distribution without an explicit amount fails. -/
theorem C41_overstated_witness : ∃ w b log, sys.Run (world exM) (sec 0) log w b ∧
    distributable w.c 60 = .ok 30 ∧ balanceAt w 60 = 20 ∧
    (∀ r, step w (E 60 2) (.msg (.distribute none)) ≠ .ok r) := by
  have h : sys.check (world exM) (sec 0)
      [(E 1 2, .msg (.delegate 5 90)), (E 40 9, .slashBonded 10),
       (E 40 1, .msg (.registerSlash 5 (1000000000 * 40) 10 false)), (E 50 1, .msg .cancel),
       (E 50 8, .msg (.undelegate 5 20))]
      (fun w _ _ => decide (balanceAt w 60 = 20) && (decide (distributable w.c 60 = .ok 30) &&
        fails w (E 60 2) (.msg (.distribute none)))) = true := by
    decide +kernel
  obtain ⟨w, b, log, hr, h⟩ := Sys.check_run h
  simp only [Bool.and_eq_true, decide_eq_true_eq] at h
  exact ⟨w, b, log, hr, h.2.1, h.1, fails_iff h.2.2⟩

/-- A cw20 vest that has not been funded cannot be canceled once something would have vested. -/
theorem C41_unfunded_witness : Started { exM with denom := .cw20 77 } (sec 0) (world { exM with denom := .cw20 77 }) ∧
    ∀ r, step (world { exM with denom := .cw20 77 }) (E 50 1) (.msg .cancel) ≠ .ok r := by
  refine ⟨⟨by decide +kernel, by decide +kernel, rfl, rfl, rfl⟩, fails_iff ?_⟩
  decide +kernel

/-- C65, negation: with a total of 2^127 over four seconds nothing can be computed from the second second to the last, so
that neither a query nor a distribution nor a cancellation succeeds then. -/
theorem C65_overflow_witness :
    Started { exM with total := 2 ^ 127, duration := 4 } (sec 0) (world { exM with total := 2 ^ 127, duration := 4 }) ∧
    (∀ y, (world { exM with total := 2 ^ 127, duration := 4 }).c.vest.vested 2 ≠ .ok y) ∧
    (∀ r, step (world { exM with total := 2 ^ 127, duration := 4 }) (E 2 2) (.msg (.distribute none)) ≠ .ok r) ∧
    (∀ r, step (world { exM with total := 2 ^ 127, duration := 4 }) (E 3 1) (.msg .cancel) ≠ .ok r) := by
  refine ⟨⟨by decide +kernel, by decide +kernel, rfl, rfl, rfl⟩, ?_, fails_iff ?_, fails_iff ?_⟩
  · intro y hy
    have : ((world { exM with total := 2 ^ 127, duration := 4 }).c.vest.vested 2).toOption = none := by decide +kernel
    rw [hy] at this
    cases this
  · decide +kernel
  · decide +kernel

end Verif.Vesting
