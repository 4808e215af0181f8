import Verif.Proofs.ExternalRewards
import Mathlib.Tactic.Linarith
import Mathlib.Tactic.FieldSimp
import Mathlib.Tactic.Positivity
import Mathlib.Data.Rat.Cast.Order
/-!
# cw20-stake-external-rewards: every staker gets its exact share up to rounding
-/

namespace Verif.ExternalRewards
open Verif.Spec.ExternalRewards

theorem share_congr {w w' : World} {log log' : List (Ev World Block Call Pay)} {a : Addr} {h : Nat}
    (hc : ∀ x, x ≤ h → rewardOf x log' = rewardOf x log ∧ w'.stakeAt a x = w.stakeAt a x ∧
      w'.totalAt x = w.totalAt x) : share w' log' a h = share w log a h := by
  induction h with
  | zero => rfl
  | succ h ih =>
    obtain ⟨h1, h2, h3⟩ := hc (h + 1) (Nat.le_refl _)
    simp only [share]
    rw [ih (fun x hx => hc x (by omega)), h1, h2, h3]

/-- Over blocks of the same reward and stakes the share grows linearly. -/
theorem share_const {w : World} {log : List (Ev World Block Call Pay)} {a : Addr} {l : Nat} {r c t : ℚ}
    (d : Nat) (hc : ∀ x, l < x → x ≤ l + d → (rewardOf x log : ℚ) * w.stakeAt a x / w.totalAt x = r * c / t) :
    share w log a (l + d) = share w log a l + d * (r * c / t) := by
  induction d with
  | zero => simp
  | succ d ih =>
    rw [← Nat.add_assoc]
    simp only [share]
    rw [ih (fun x h1 h2 => hc x h1 (by omega)), hc (l + d + 1) (by omega) (by omega)]
    push_cast
    ring

theorem share_zero {w : World} {log : List (Ev World Block Call Pay)} {a : Addr} {l h : Nat} (hl : l ≤ h)
    (hc : ∀ x, l < x → x ≤ h → rewardOf x log = 0) : share w log a h = share w log a l := by
  obtain ⟨d, rfl⟩ := Nat.exists_eq_add_of_le hl
  rw [share_const (r := 0) (c := 0) (t := 0) d (fun x h1 h2 => by simp [hc x h1 h2])]
  simp

/-- What `a` has and would have, against its share up to the last update. -/
def Bounds (w : World) (log : List (Ev World Block Call Pay)) (n : Nat) (a : Addr) : Prop :=
  (SCALE : ℚ) * (received a log + getD0 w.c.pending a : Nat) +
      (w.stake a * (w.c.perToken - getD0 w.c.userPerToken a) : Nat) ≤
      SCALE * share w log a w.c.lastUpdate ∧
  SCALE * share w log a w.c.lastUpdate ≤
    (SCALE : ℚ) * (received a log + getD0 w.c.pending a : Nat) +
      (w.stake a * (w.c.perToken - getD0 w.c.userPerToken a) : Nat) + SCALE * n

theorem Bounds.mono {w : World} {log : List (Ev World Block Call Pay)} {n m : Nat} {a : Addr}
    (h : Bounds w log n a) (hle : n ≤ m) : Bounds w log m a := by
  refine ⟨h.1, h.2.trans ?_⟩
  have : (n : ℚ) ≤ m := by exact_mod_cast hle
  have hS : (0 : ℚ) ≤ SCALE := by positivity
  nlinarith

/-- The rewards of the blocks to come. -/
def Rates (w : World) (log : List (Ev World Block Call Pay)) : Prop :=
  ∀ x, w.c.lastUpdate < x → rewardOf x log = if x ≤ w.c.finish then w.c.rate else 0

/-- The share between the last update and an update at `b`, against what accrues per token. -/
theorem share_accrue {w : World} {b : Block} {F P : Nat} {log : List (Ev World Block Call Pay)}
    (hi : Inv w b F P) (hr : Rates w log) (a : Addr) :
    SCALE * share w log a w.c.lastUpdate + (w.stake a * accrued w.c b (w.totalAt b.height) : Nat) ≤
        SCALE * share w log a (applicable w.c b) ∧
      SCALE * share w log a (applicable w.c b) ≤ SCALE * share w log a w.c.lastUpdate +
        (w.stake a * accrued w.c b (w.totalAt b.height) : Nat) + SCALE := by
  have hS : (0 : ℚ) < SCALE := by exact_mod_cast SCALE_pos
  rcases hi.seen with h0 | ⟨h1, h2, h3⟩
  · rw [h0, accrued_zero h0]
    simp only [Nat.mul_zero, Nat.cast_zero, add_zero, le_refl, true_and]
    linarith
  · have hap := applicable_le (s := w.c) (b := b)
    have ht := (h3 b.height (by omega)).1
    obtain ⟨d, hd⟩ := Nat.exists_eq_add_of_le (Nat.le_of_lt h1)
    have hsh : share w log a (applicable w.c b) = share w log a w.c.lastUpdate +
        d * ((w.c.rate : ℚ) * w.stake a / w.total) := by
      rw [hd]
      refine share_const d (fun x hx1 hx2 => ?_)
      rw [(h3 x hx1).1, (h3 x hx1).2 a, hr x hx1, if_pos (by omega)]
    rw [hsh, ht]
    have hle := hi.stake_le a
    have hfit := hi.fits
    by_cases hT : w.total = 0
    · have hs0 : w.stake a = 0 := by omega
      simp only [accrued, hT, hs0]
      simp
    · have hacc : accrued w.c b w.total = w.c.rate * d * SCALE / w.total := by
        have : applicable w.c b - w.c.lastUpdate = d := by omega
        simp [accrued, hT, this]
      have hTp : (0 : ℚ) < w.total := by exact_mod_cast Nat.pos_of_ne_zero hT
      have l1 : accrued w.c b w.total * w.total ≤ w.c.rate * d * SCALE := by
        rw [hacc]; exact Nat.div_mul_le_self _ _
      have l2 : w.c.rate * d * SCALE ≤ (accrued w.c b w.total + 1) * w.total := by
        rw [hacc]
        have := Nat.div_add_mod (w.c.rate * d * SCALE) w.total
        have hm := Nat.mod_lt (w.c.rate * d * SCALE) (Nat.pos_of_ne_zero hT)
        rw [Nat.add_mul, Nat.one_mul, Nat.mul_comm (_ / _)]
        omega
      have l1' : (accrued w.c b w.total : ℚ) * w.total ≤ w.c.rate * d * SCALE := by exact_mod_cast l1
      have l2' : (w.c.rate : ℚ) * d * SCALE ≤ (accrued w.c b w.total + 1) * w.total := by exact_mod_cast l2
      have k1 : (accrued w.c b w.total : ℚ) ≤ w.c.rate * d * SCALE / w.total := (le_div_iff₀ hTp).2 l1'
      have k2 : (w.c.rate : ℚ) * d * SCALE / w.total ≤ accrued w.c b w.total + 1 := (div_le_iff₀ hTp).2 l2'
      have e : (SCALE : ℚ) * (d * ((w.c.rate : ℚ) * w.stake a / w.total)) =
          w.stake a * (w.c.rate * d * SCALE / w.total) := by ring
      have hc0 : (0 : ℚ) ≤ w.stake a := by positivity
      have hcS : (w.stake a : ℚ) ≤ SCALE := by
        have := U128_lt_SCALE
        exact_mod_cast (by omega : w.stake a ≤ SCALE)
      rw [mul_add, e]
      push_cast
      constructor
      · have := mul_le_mul_of_nonneg_left k1 hc0
        linarith
      · have := mul_le_mul_of_nonneg_left k2 hc0
        linarith

theorem stake_with (w : World) (c : State) (a : Addr) : World.stake { w with c := c } a = w.stake a := rfl

theorem Bounds.update {w : World} {b : Block} {F P n : Nat} {log : List (Ev World Block Call Pay)}
    (hi : Inv w b F P) (hr : Rates w log) {q : Addr} (h : Bounds w log n q) (a : Addr) :
    Bounds { w with c := updated w.c b (w.view b) a } log (n + 2) q := by
  obtain ⟨s1, s2⟩ := share_accrue hi hr q
  obtain ⟨h1, h2⟩ := h
  have hu := hi.ule q
  have hS : (0 : ℚ) < SCALE := by exact_mod_cast SCALE_pos
  have hsc : share { w with c := updated w.c b (w.view b) a } log q (applicable w.c b) =
      share w log q (applicable w.c b) := share_congr (fun _ _ => ⟨rfl, rfl, rfl⟩)
  have hsplit : w.stake q * (w.c.perToken + accrued w.c b (w.totalAt b.height) - getD0 w.c.userPerToken q) =
      w.stake q * (w.c.perToken - getD0 w.c.userPerToken q) +
        w.stake q * accrued w.c b (w.totalAt b.height) := by
    rw [← Nat.mul_add]; congr 1; omega
  unfold Bounds
  have el : ({ w with c := updated w.c b (w.view b) a } : World).c.lastUpdate = applicable w.c b := rfl
  rw [el, hsc, stake_with]
  by_cases hq : a = q
  · subst hq
    have ep : getD0 (updated w.c b (w.view b) a).pending a = getD0 w.c.pending a +
        earned w.c (w.view b) a (w.c.perToken + accrued w.c b (w.totalAt b.height)) := by
      simp only [updated, getD0_set, if_true]; rfl
    have eu : (updated w.c b (w.view b) a).perToken - getD0 (updated w.c b (w.view b) a).userPerToken a = 0 := by
      rw [updated_user, Nat.sub_self]
    have hwt := hi.weight a
    have e1 : SCALE * earned w.c (w.view b) a (w.c.perToken + accrued w.c b (w.totalAt b.height)) ≤
        w.stake a * (w.c.perToken + accrued w.c b (w.totalAt b.height) - getD0 w.c.userPerToken a) := by
      rw [← hwt]; exact Nat.mul_div_le _ _
    have e2 : w.stake a * (w.c.perToken + accrued w.c b (w.totalAt b.height) - getD0 w.c.userPerToken a) ≤
        SCALE * earned w.c (w.view b) a (w.c.perToken + accrued w.c b (w.totalAt b.height)) + SCALE := by
      rw [← hwt]
      unfold earned
      have k1 := Nat.div_add_mod ((w.view b).of a * (w.c.perToken + accrued w.c b (w.totalAt b.height) -
        getD0 w.c.userPerToken a)) SCALE
      have k2 := Nat.mod_lt ((w.view b).of a * (w.c.perToken + accrued w.c b (w.totalAt b.height) -
        getD0 w.c.userPerToken a)) SCALE_pos
      have k3 : (w.view b).of a = w.stakeAt a b.height := rfl
      rw [k3] at k1 k2 ⊢
      omega
    rw [hsplit] at e1 e2
    have e1' : (SCALE : ℚ) * (earned w.c (w.view b) a (w.c.perToken + accrued w.c b (w.totalAt b.height)) : Nat) ≤
        (w.stake a * (w.c.perToken - getD0 w.c.userPerToken a) : Nat) +
        (w.stake a * accrued w.c b (w.totalAt b.height) : Nat) := by exact_mod_cast e1
    have e2' : ((w.stake a * (w.c.perToken - getD0 w.c.userPerToken a) : Nat) : ℚ) +
        (w.stake a * accrued w.c b (w.totalAt b.height) : Nat) ≤
        SCALE * (earned w.c (w.view b) a (w.c.perToken + accrued w.c b (w.totalAt b.height)) : Nat) + SCALE := by
      exact_mod_cast e2
    simp only [ep, eu, Nat.mul_zero]
    rw [← Nat.add_assoc, Nat.cast_add (received a log + getD0 w.c.pending a), Nat.cast_add n 2]
    push_cast at *
    constructor <;> linarith
  · have ep : getD0 (updated w.c b (w.view b) a).pending q = getD0 w.c.pending q := by
      simp only [updated, getD0_set, hq, if_false]
    have eu : (updated w.c b (w.view b) a).perToken - getD0 (updated w.c b (w.view b) a).userPerToken q =
        w.c.perToken + accrued w.c b (w.totalAt b.height) - getD0 w.c.userPerToken q := by
      simp only [updated, getD0_set, hq, if_false]; rfl
    simp only [ep, eu, hsplit]
    push_cast at *
    constructor <;> linarith

theorem Rates.update {w : World} {b : Block} {F P : Nat} {log : List (Ev World Block Call Pay)}
    (hi : Inv w b F P) (hr : Rates w log) (a : Addr) :
    Rates { w with c := updated w.c b (w.view b) a } log := by
  intro x hx
  have := lastUpdate_le hi
  have hx' : applicable w.c b < x := hx
  exact hr x (by omega)

theorem rewardOf_other {w w' : World} {b : Block} {call : Call} {out : Pay} {x : Nat}
    {log : List (Ev World Block Call Pay)} (h : ∀ s n, call ≠ .fund s n) :
    rewardOf x (⟨w, b, call, out, w'⟩ :: log) = rewardOf x log := by
  cases call with
  | fund s n => exact absurd rfl (h s n)
  | _ => rfl

theorem received_other {w w' : World} {b : Block} {call : Call} {out : Pay} {a : Addr}
    {log : List (Ev World Block Call Pay)} (h : call ≠ .exec a .claim) :
    received a (⟨w, b, call, out, w'⟩ :: log) = received a log := by
  cases call with
  | exec s m =>
    cases m with
    | claim =>
      have : s ≠ a := by rintro rfl; exact h rfl
      simp [received, this]
    | _ => rfl
  | _ => rfl

/-- Change of the parts of world and log that do not matter. -/
theorem Bounds.congr {w w' : World} {log log' : List (Ev World Block Call Pay)} {n : Nat} {a : Addr}
    (h : Bounds w log n a) (hs : w'.stake a = w.stake a ∨ w.c.perToken - getD0 w.c.userPerToken a = 0)
    (hsh : share w' log' a w'.c.lastUpdate = share w log a w.c.lastUpdate)
    (hp : received a log' + getD0 w'.c.pending a = received a log + getD0 w.c.pending a)
    (hu : w'.c.perToken - getD0 w'.c.userPerToken a = w.c.perToken - getD0 w.c.userPerToken a) :
    Bounds w' log' n a := by
  unfold Bounds
  rw [hsh, hp, hu]
  rcases hs with hs | hs
  · rw [hs]; exact h
  · rw [hs]
    unfold Bounds at h
    rw [hs] at h
    simpa using h

structure SInv (w : World) (log : List (Ev World Block Call Pay)) : Prop where
  rates : Rates w log
  bounds : ∀ a, Bounds w log (2 * log.length) a

theorem sinv_step {w w' : World} {b b' : Block} {call : Call} {out : Pay} {F P : Nat}
    {log : List (Ev World Block Call Pay)} (hi : Inv w b F P) (hsi : SInv w log)
    (hb : b.le b') (hs : sys.step w b' call = .ok (w', out)) :
    SInv w' (⟨w, b', call, out, w'⟩ :: log) := by
  have hi := hi.later hb
  have hlen : 2 * log.length + 2 = 2 * (log.length + 1) := by omega
  cases step_effect hs with
  | other hsr self stakes totals hc =>
    have hnf : ∀ s n, call ≠ .fund s n := by
      rcases hc with ⟨s, m, rfl, _⟩ | ⟨s, t, n, rfl, _⟩ | ⟨t, n, rfl, _⟩ | ⟨s, n, rfl, _⟩ <;> simp
    have hnc : ∀ a, call ≠ .exec a .claim := by
      rcases hc with ⟨s, m, rfl, hm, _⟩ | ⟨s, t, n, rfl, _⟩ | ⟨t, n, rfl, _⟩ | ⟨s, n, rfl, _⟩ <;> simp [*]
    refine ⟨fun x hx => ?_, fun a => ?_⟩
    · rw [rewardOf_other hnf, hsr.finish, hsr.rate]
      exact hsi.rates x (by rw [← hsr.lastUpdate]; exact hx)
    · refine ((hsi.bounds a).congr (Or.inl ?_) ?_ ?_ ?_).mono (by simp)
      · unfold World.stake; rw [stakes]
      · rw [hsr.lastUpdate]
        refine share_congr (fun x _ => ⟨rewardOf_other hnf, ?_, ?_⟩)
        · unfold World.stakeAt; rw [stakes]
        · unfold World.totalAt; rw [totals]
      · rw [received_other (hnc a), hsr.pending]
      · rw [hsr.perToken, hsr.userPerToken]
  | claim ha hu h0 hl =>
    rename_i a l
    have hr := Rates.update hi hsi.rates a
    refine ⟨fun x hx => ?_, fun q => ?_⟩
    · rw [rewardOf_other (by simp)]; exact hr x hx
    · have hB := Bounds.update hi hsi.rates (hsi.bounds q) a
      refine Bounds.mono (n := 2 * log.length + 2) ?_ (by simp only [List.length_cons]; omega)
      refine hB.congr (Or.inl rfl) ?_ ?_ ?_
      · exact share_congr (fun x _ => ⟨rewardOf_other (by simp), rfl, rfl⟩)
      · simp only [getD0_set]
        by_cases hq : a = q
        · subst hq
          have hm := Ledger.move_get hl (Ne.symm ha) a
          simp only [received, coins, if_true]
          rw [hm.2, if_neg ha]
          simp only [if_true]
          omega
        · rw [received_other (by simp [hq]), if_neg hq]
      · simp only
  | fund ha ho hu hf hd hr hl =>
    rename_i a n l
    have hrr := Rates.update hi hsi.rates a
    have hap : applicable w.c b' = w.c.finish := by unfold applicable; omega
    refine ⟨fun x hx => ?_, fun q => ?_⟩
    · have hx' : b'.height < x := hx
      simp only [rewardOf]
      have h1 := hrr x (show applicable w.c b' < x by omega)
      have h2 : ({ w with c := updated w.c b' (w.view b') a } : World).c.finish = w.c.finish := rfl
      rw [h2, if_neg (by omega)] at h1
      simp only [h1, hx', true_and]
      omega
    · have hB := Bounds.update hi hsi.rates (hsi.bounds q) a
      refine Bounds.mono (n := 2 * log.length + 2) ?_ (by simp only [List.length_cons]; omega)
      refine hB.congr (Or.inl rfl) ?_ ?_ ?_
      · show share _ _ q b'.height = share _ _ q (applicable w.c b')
        have e : share { w with c := updated w.c b' (w.view b') a } log q b'.height =
            share { w with c := updated w.c b' (w.view b') a } log q (applicable w.c b') := by
          refine share_zero (by omega) (fun x h1 h2 => ?_)
          have h3 := hrr x (show applicable w.c b' < x from h1)
          have h4 : ({ w with c := updated w.c b' (w.view b') a } : World).c.finish = w.c.finish := rfl
          rw [h4, if_neg (by omega)] at h3
          exact h3
        rw [← e]
        refine share_congr (fun x hx => ⟨?_, rfl, rfl⟩)
        simp only [rewardOf]
        rw [if_neg (by omega)]; rfl
      · rw [received_other (by simp)]
      · simp only
  | stake hw hu =>
    rename_i a n w1
    have hv := view_record hi.up1 hi.up2 hw
    obtain ⟨hn, rfl⟩ := recordStake_inv hw
    have hr := Rates.update hi hsi.rates a
    rw [hv]
    refine ⟨fun x hx => ?_, fun q => ?_⟩
    · rw [rewardOf_other (by simp)]; exact hr x hx
    · have hB := Bounds.update hi hsi.rates (hsi.bounds q) a
      refine Bounds.mono (n := 2 * log.length + 2) ?_ (by simp only [List.length_cons]; omega)
      refine hB.congr ?_ ?_ ?_ ?_
      · by_cases hq : a = q
        · subst hq
          right
          show (updated w.c b' (w.view b') a).perToken - getD0 (updated w.c b' (w.view b') a).userPerToken a = 0
          rw [updated_user, Nat.sub_self]
        · left
          simp [World.stake, Snap.get_save, hq]
      · refine share_congr (fun x hx => ⟨rewardOf_other (by simp), ?_, ?_⟩)
        · have hx' : x ≤ applicable w.c b' := hx
          have := (applicable_le (s := w.c) (b := b')).1
          unfold World.stakeAt
          simp only [Snap.atHeight_save hi.up1 (Nat.le_trans hx' this)]
        · have hx' : x ≤ applicable w.c b' := hx
          have := (applicable_le (s := w.c) (b := b')).1
          unfold World.totalAt
          simp only [Snap.atHeight_save hi.up2 (Nat.le_trans hx' this)]
      · rw [received_other (by simp)]
      · simp only

theorem sinv_reach {w : World} {b : Block} {log : List (Ev World Block Call Pay)}
    (h : sys.Reach w b log) : SInv w log := by
  refine Sys.Reach.induct (P := fun w _ log => SInv w log) ?_ ?_ h
  · intro b w hi
    obtain ⟨⟨o, s, t, d, hc⟩, _⟩ := hi
    simp only [instantiate, bind_ok, require_ok, decide_eq_true_eq, Except.ok.injEq] at hc
    obtain ⟨_, hd, hc⟩ := hc
    refine ⟨fun x hx => ?_, fun a => ?_⟩
    · rw [← hc]; simp [rewardOf]
    · unfold Bounds
      rw [← hc]
      simp [received, share, getD0, AMap.get]
  · intro w b log b' call out w' hr hi hb hs
    exact sinv_step (inv_reach hr) hi hb hs

end Verif.ExternalRewards
