import Verif.Spec.ExternalRewards
import Verif.Base.SnapHistory
import Mathlib.Tactic.Ring
import Mathlib.Tactic.ByContra
/-!
# cw20-stake-external-rewards: effects of the calls and the money invariant
-/

namespace Verif

/-- Take out the entry of one key from a sum. -/
theorem AMap.sum_zero_at {K V : Type} [DecidableEq K] {m : AMap K V} (hm : AMap.WF m) (f g : K → V → Nat)
    (a : K) (hf : ∀ v, f a v = 0) (hfg : ∀ k v, k ≠ a → f k v = g k v) :
    AMap.sum f m + AMap.at? g m a = AMap.sum g m := by
  have e1 := AMap.sum_erase f hm a
  have e2 := AMap.sum_erase g hm a
  have e3 : AMap.sum f (AMap.erase m a) = AMap.sum g (AMap.erase m a) := by
    refine AMap.sum_congr (fun k v hkv => hfg k v ?_)
    rintro rfl
    have : k ∈ (AMap.erase m k).map Prod.fst := List.mem_map.2 ⟨(k, v), hkv, rfl⟩
    rw [AMap.mem_keys_iff, AMap.get_erase] at this
    simp at this
  have e4 : AMap.at? f m a = 0 := by
    unfold AMap.at?; split <;> simp [hf]
  omega

theorem AMap.sum_mul {K : Type} (m : AMap K Nat) (x : Nat) :
    AMap.sum (fun _ n => n * x) m = Verif.total m * x := by
  induction m with
  | nil => simp [AMap.sum, Verif.total]
  | cons e m ih =>
    obtain ⟨k, v⟩ := e
    simp only [AMap.sum, ih, Verif.total, List.map_cons, List.sum_cons]
    ring

/-- Values of different keys add up to at most the sum. -/
theorem AMap.sum_nodup {K : Type} [DecidableEq K] {m : AMap K Nat} (hm : AMap.WF m) (f : K → Nat → Nat) (l : List K)
    (hl : l.Nodup) (hf : ∀ k, f k 0 = 0) : (l.map (fun k => f k (getD0 m k))).sum ≤ AMap.sum f m := by
  induction l generalizing m with
  | nil => simp
  | cons k l ih =>
    simp only [List.map_cons, List.sum_cons]
    have hk := (List.nodup_cons.1 hl).1
    have e1 := AMap.sum_erase f hm k
    have e2 := ih (AMap.WF_erase hm k) (List.nodup_cons.1 hl).2
    have e3 : (l.map (fun q => f q (getD0 (AMap.erase m k) q))) = (l.map (fun q => f q (getD0 m q))) := by
      refine List.map_congr_left (fun q hq => ?_)
      have : ¬ k = q := by rintro rfl; exact hk hq
      simp [getD0, AMap.get_erase, this]
    have e4 : AMap.at? f m k = f k (getD0 m k) := by
      unfold AMap.at? getD0; cases AMap.get m k <;> simp [hf]
    rw [e3] at e2
    omega

end Verif

namespace Verif.ExternalRewards
open Verif.Spec.ExternalRewards

theorem mul256_ok (a b c : Nat) : (mul256 a b = .ok c) ↔ (a * b < U256 ∧ a * b = c) := by
  unfold mul256; split <;> simp <;> omega
theorem add256_ok (a b c : Nat) : (add256 a b = .ok c) ↔ (a + b < U256 ∧ a + b = c) := by
  unfold add256; split <;> simp <;> omega
theorem subN_ok (a b c : Nat) : (subN a b = .ok c) ↔ (b ≤ a ∧ a - b = c) := by
  unfold subN; split <;> simp <;> omega
theorem to128_ok (a c : Nat) : (to128 a = .ok c) ↔ (a < U128 ∧ a = c) := by
  unfold to128; split <;> simp <;> omega

/-- The scaled reward per token accrued since the last update. -/
def accrued (s : State) (b : Block) (t : Nat) : Nat :=
  if t = 0 then 0 else s.rate * (applicable s b - s.lastUpdate) * SCALE / t

/-- What an address earned since its last update. -/
def earned (s : State) (k : Stakes) (a : Addr) (r : Nat) : Nat :=
  k.of a * (r - getD0 s.userPerToken a) / SCALE

/-- The state after `update_rewards`. -/
def updated (s : State) (b : Block) (k : Stakes) (a : Addr) : State :=
  { s with perToken := s.perToken + accrued s b k.total
           pending := s.pending.set a (getD0 s.pending a + earned s k a (s.perToken + accrued s b k.total))
           userPerToken := s.userPerToken.set a (s.perToken + accrued s b k.total)
           lastUpdate := applicable s b }

theorem additional_inv {s : State} {b : Block} {t x : Nat} (h : additional s b t = .ok x) :
    x = accrued s b t := by
  unfold additional at h; unfold accrued
  split at h
  · cases h; simp [*]
  · simp only [bind_ok, subN_ok, mul256_ok, Except.ok.injEq] at h
    obtain ⟨_, ⟨_, rfl⟩, _, ⟨_, rfl⟩, rfl⟩ := h
    simp [*]

theorem rewardPerToken_inv {s : State} {b : Block} {t r : Nat} (h : rewardPerToken s b t = .ok r) :
    r = s.perToken + accrued s b t := by
  simp only [rewardPerToken, bind_ok, add256_ok] at h
  obtain ⟨_, h1, _, rfl⟩ := h
  rw [additional_inv h1]

theorem rewardsEarned_inv {s : State} {k : Stakes} {a : Addr} {r e : Nat}
    (h : rewardsEarned s k a r = .ok e) : e = earned s k a r := by
  simp only [rewardsEarned, bind_ok, subN_ok, mul256_ok, to128_ok] at h
  obtain ⟨_, ⟨_, rfl⟩, _, ⟨_, rfl⟩, _, rfl⟩ := h
  rfl

theorem updateRewards_inv {s s' : State} {b : Block} {k : Stakes} {a : Addr}
    (h : updateRewards s b k a = .ok s') : s' = updated s b k a := by
  simp only [updateRewards, bind_ok, add128_ok, Except.ok.injEq] at h
  obtain ⟨_, h1, _, h2, _, ⟨_, rfl⟩, rfl⟩ := h
  have e1 := rewardPerToken_inv h1
  subst e1
  have e2 := rewardsEarned_inv h2
  subst e2
  rfl

theorem queryPending_inv {s : State} {b : Block} {k : Stakes} {a : Addr} {n : Nat}
    (h : queryPending s b k a = .ok n) :
    n = getD0 s.pending a + earned s k a (s.perToken + accrued s b k.total) := by
  simp only [queryPending, bind_ok, add128_ok] at h
  obtain ⟨_, h1, _, h2, _, rfl⟩ := h
  have e1 := rewardPerToken_inv h1
  subst e1
  have e2 := rewardsEarned_inv h2
  subst e2
  omega

theorem fund_inv {s s' : State} {b : Block} {k : Stakes} {a : Addr} {n : Nat}
    (h : execFund s b k a n = .ok s') :
    s.ownership.owner = some a ∧ updateRewards s b k a = .ok (updated s b k a) ∧ s.finish ≤ b.height ∧
      s.duration ≠ 0 ∧ n / s.duration ≠ 0 ∧ b.height + s.duration < U64 ∧
      s' = { updated s b k a with finish := b.height + s.duration, rate := n / s.duration,
                                  lastUpdate := b.height } := by
  simp only [execFund, bind_ok, Ownership.assertOwner_ok, require_ok, add64_ok, decide_eq_true_eq,
    Except.ok.injEq] at h
  obtain ⟨_, h1, s1, h2, _, h3, _, ⟨h4, rfl⟩, _, h5, _, h6, rfl⟩ := h
  have := updateRewards_inv h2
  subst this
  exact ⟨h1, h2, h3, h5, h6, h4, rfl⟩

theorem claim_inv {s s' : State} {b : Block} {k : Stakes} {a : Addr} {p : Pay}
    (h : execClaim s b k a = .ok (s', p)) :
    updateRewards s b k a = .ok (updated s b k a) ∧
      s' = { updated s b k a with pending := AMap.set (updated s b k a).pending a 0 } ∧
      getD0 (updated s b k a).pending a ≠ 0 ∧ p = some (a, getD0 (updated s b k a).pending a) := by
  simp only [execClaim, bind_ok, orErr_ok, require_ok, decide_eq_true_eq, Except.ok.injEq,
    Prod.mk.injEq] at h
  obtain ⟨s1, h1, r, h2, _, h3, rfl, rfl⟩ := h
  have := updateRewards_inv h1
  subst this
  have e : getD0 (updated s b k a).pending a = r := by simp [getD0, h2]
  exact ⟨h1, rfl, by rw [e]; exact h3, by rw [e]⟩

/-- The fields the rewards depend on are the same. -/
structure SameRewards (s s' : State) : Prop where
  token : s'.token = s.token
  staking : s'.staking = s.staking
  finish : s'.finish = s.finish
  rate : s'.rate = s.rate
  perToken : s'.perToken = s.perToken
  lastUpdate : s'.lastUpdate = s.lastUpdate
  pending : s'.pending = s.pending
  userPerToken : s'.userPerToken = s.userPerToken
  duration : s.duration ≠ 0 → s'.duration ≠ 0

/-- What a successful call does. -/
inductive Effect (w : World) (b : Block) : Call → World → Pay → Prop where
  | other {call : Call} {w' : World} (hs : SameRewards w.c w'.c) (self : w'.self = w.self)
      (stakes : w'.stakes = w.stakes) (totals : w'.totals = w.totals)
      (hc : (∃ s m, call = .exec s m ∧ m ≠ .claim ∧ w'.ledger = w.ledger) ∨
        (∃ s t n, call = .transfer s t n ∧ s ≠ w.self ∧ w.ledger.move s t n = .ok w'.ledger ∧ w'.c = w.c) ∨
        (∃ t n, call = .mint t n ∧ Verif.total w.ledger + n < U128 ∧ w.ledger.credit t n = .ok w'.ledger ∧ w'.c = w.c) ∨
        (∃ s n, call = .burn s n ∧ s ≠ w.self ∧ w.ledger.debit s n = .ok w'.ledger ∧ w'.c = w.c)) :
      Effect w b call w' none
  | claim {a : Addr} {l : Ledger Addr} (ha : a ≠ w.self)
      (hu : updateRewards w.c b (w.view b) a = .ok (updated w.c b (w.view b) a))
      (h0 : getD0 (updated w.c b (w.view b) a).pending a ≠ 0)
      (hl : w.ledger.move w.self a (getD0 (updated w.c b (w.view b) a).pending a) = .ok l) :
      Effect w b (.exec a .claim)
        { w with c := { updated w.c b (w.view b) a with
                        pending := AMap.set (updated w.c b (w.view b) a).pending a 0 }, ledger := l }
        (some (a, getD0 (updated w.c b (w.view b) a).pending a))
  | fund {a : Addr} {n : Nat} {l : Ledger Addr} (ha : a ≠ w.self) (ho : w.c.ownership.owner = some a)
      (hu : updateRewards w.c b (w.view b) a = .ok (updated w.c b (w.view b) a))
      (hf : w.c.finish ≤ b.height) (hd : w.c.duration ≠ 0) (hr : n / w.c.duration ≠ 0)
      (hl : w.ledger.move a w.self n = .ok l) :
      Effect w b (.fund a n)
        { w with c := { updated w.c b (w.view b) a with finish := b.height + w.c.duration,
                                                        rate := n / w.c.duration, lastUpdate := b.height },
                 ledger := l } none
  | stake {a : Addr} {n : Nat} {w1 : World} (hw : recordStake w b a n = .ok w1)
      (hu : updateRewards w1.c b (w1.view b) a = .ok (updated w1.c b (w1.view b) a)) :
      Effect w b (.setStake a n true) { w1 with c := updated w1.c b (w1.view b) a } none

theorem step_effect {w w' : World} {b : Block} {call : Call} {out : Pay}
    (h : sys.step w b call = .ok (w', out)) : Effect w b call w' out := by
  simp only [sys, bind_ok, require_ok] at h
  obtain ⟨_, hk, h⟩ := h
  cases call with
  | exec sender m =>
    simp only [step, bind_ok, require_ok, decide_eq_true_eq] at h
    obtain ⟨_, hs, _, hh, ⟨c, o⟩, he, h⟩ := h
    cases m with
    | stakeChangeHook a =>
      simp only [honest, decide_eq_true_eq] at hh
      simp only [exec, bind_ok, require_ok, decide_eq_true_eq] at he
      obtain ⟨_, h1, _⟩ := he
      exact absurd h1 hh
    | claim =>
      simp only [exec] at he
      obtain ⟨h1, rfl, h3, rfl⟩ := claim_inv he
      simp only [settle, bind_ok, Except.ok.injEq, Prod.mk.injEq] at h
      obtain ⟨l, hl, rfl, rfl⟩ := h
      exact .claim hs h1 h3 hl
    | receive f n =>
      simp only [honest, decide_eq_true_eq] at hh
      simp only [exec, bind_ok, require_ok, decide_eq_true_eq] at he
      obtain ⟨_, h1, _⟩ := he
      exact absurd h1 hh
    | fund n =>
      simp only [honest, decide_eq_true_eq] at hh
      simp only [exec, bind_ok, require_ok, decide_eq_true_eq] at he
      obtain ⟨_, _, _, h1, _⟩ := he
      exact absurd hh h1
    | updateRewardDuration d =>
      simp only [exec, execUpdateDuration, bind_ok, Ownership.assertOwner_ok, require_ok,
        decide_eq_true_eq, Except.ok.injEq, Prod.mk.injEq] at he
      obtain ⟨s, ⟨_, h1, _, h2, _, h3, rfl⟩, rfl, rfl⟩ := he
      simp only [settle, Except.ok.injEq, Prod.mk.injEq] at h
      obtain ⟨rfl, rfl⟩ := h
      exact .other ⟨rfl, rfl, rfl, rfl, rfl, rfl, rfl, rfl, fun _ => h3⟩ rfl rfl rfl
        (Or.inl ⟨_, _, rfl, by simp, rfl⟩)
    | updateOwnership x =>
      simp only [exec, bind_ok, Except.ok.injEq, Prod.mk.injEq] at he
      obtain ⟨o, h1, rfl, rfl⟩ := he
      simp only [settle, Except.ok.injEq, Prod.mk.injEq] at h
      obtain ⟨rfl, rfl⟩ := h
      exact .other ⟨rfl, rfl, rfl, rfl, rfl, rfl, rfl, rfl, fun h => h⟩ rfl rfl rfl
        (Or.inl ⟨_, _, rfl, by simp, rfl⟩)
  | fund sender n =>
    simp only [step, bind_ok, require_ok, decide_eq_true_eq] at h
    obtain ⟨_, hs, l, hl, ⟨c, o⟩, he, h⟩ := h
    have key : execFund w.c b (w.view b) sender n = .ok c ∧ o = none := by
      unfold fundMsg at he
      cases ht : w.c.token with
      | native =>
        simp only [ht, exec, bind_ok, require_ok, decide_eq_true_eq, Except.ok.injEq, Prod.mk.injEq] at he
        obtain ⟨_, _, _, _, s, h1, rfl, rfl⟩ := he
        exact ⟨h1, rfl⟩
      | cw20 t =>
        simp only [ht, exec, bind_ok, require_ok, decide_eq_true_eq, Except.ok.injEq, Prod.mk.injEq] at he
        obtain ⟨_, _, s, h1, rfl, rfl⟩ := he
        exact ⟨h1, rfl⟩
    obtain ⟨hf, rfl⟩ := key
    obtain ⟨h1, h2, h3, h4, h5, _, rfl⟩ := fund_inv hf
    simp only [settle, Except.ok.injEq, Prod.mk.injEq] at h
    obtain ⟨rfl, rfl⟩ := h
    exact .fund hs h1 h2 h3 h4 h5 hl
  | transfer s t n =>
    simp only [step, bind_ok, require_ok, decide_eq_true_eq, Except.ok.injEq, Prod.mk.injEq] at h
    obtain ⟨_, hs, l, hl, rfl, rfl⟩ := h
    exact .other ⟨rfl, rfl, rfl, rfl, rfl, rfl, rfl, rfl, fun h => h⟩ rfl rfl rfl
      (Or.inr (Or.inl ⟨s, t, n, rfl, hs, hl, rfl⟩))
  | mint t n =>
    simp only [step, bind_ok, require_ok, decide_eq_true_eq, Except.ok.injEq, Prod.mk.injEq] at h
    obtain ⟨_, hs, l, hl, rfl, rfl⟩ := h
    exact .other ⟨rfl, rfl, rfl, rfl, rfl, rfl, rfl, rfl, fun h => h⟩ rfl rfl rfl
      (Or.inr (Or.inr (Or.inl ⟨t, n, rfl, hs, hl, rfl⟩)))
  | burn s n =>
    simp only [step, bind_ok, require_ok, decide_eq_true_eq, Except.ok.injEq, Prod.mk.injEq] at h
    obtain ⟨_, hs, l, hl, rfl, rfl⟩ := h
    exact .other ⟨rfl, rfl, rfl, rfl, rfl, rfl, rfl, rfl, fun h => h⟩ rfl rfl rfl
      (Or.inr (Or.inr (Or.inr ⟨s, n, rfl, hs, hl, rfl⟩)))
  | setStake a n hooked =>
    cases hooked with
    | false => simp at hk
    | true =>
      simp only [step, bind_ok, if_true] at h
      obtain ⟨w1, hw, ⟨c, o⟩, he, h⟩ := h
      simp only [exec, bind_ok, require_ok, decide_eq_true_eq, Except.ok.injEq, Prod.mk.injEq] at he
      obtain ⟨_, _, s, h1, rfl, rfl⟩ := he
      have := updateRewards_inv h1
      subst this
      simp only [settle, Except.ok.injEq, Prod.mk.injEq] at h
      obtain ⟨rfl, rfl⟩ := h
      exact .stake hw h1

theorem recordStake_inv {w w1 : World} {b : Block} {a : Addr} {n : Nat} (h : recordStake w b a n = .ok w1) :
    w.total - w.stake a + n < U128 ∧
      w1 = { w with stakes := w.stakes.save a n b.height,
                    totals := w.totals.save () (w.total - w.stake a + n) b.height } := by
  simp only [recordStake, bind_ok, require_ok, decide_eq_true_eq, Except.ok.injEq] at h
  obtain ⟨_, h1, rfl⟩ := h
  exact ⟨h1, rfl⟩

/-! ## The money invariant -/

/-- With `F` tokens funded and `P` tokens paid out so far, at block `b`. -/
structure Inv (w : World) (b : Block) (F P : Nat) : Prop where
  wf : AMap.WF w.stakes.cur
  tot : w.total = Verif.total w.stakes.cur
  fits : w.total < U128
  up1 : w.stakes.UpTo b.height
  up2 : w.totals.UpTo b.height
  lf : w.c.lastUpdate ≤ w.c.finish
  lb : w.c.lastUpdate ≤ b.height
  dur : w.c.duration ≠ 0
  ule : ∀ a, getD0 w.c.userPerToken a ≤ w.c.perToken
  sync1 : w.c.lastUpdate < w.c.finish → w.stakes.UpTo w.c.lastUpdate ∧ w.totals.UpTo w.c.lastUpdate
  sync2 : ∀ a, w.stakeAt a b.height ≠ w.stake a → getD0 w.c.userPerToken a = w.c.perToken
  money : SCALE * (Verif.total w.c.pending + P) +
      AMap.sum (fun a n => n * (w.c.perToken - getD0 w.c.userPerToken a)) w.stakes.cur +
      SCALE * (w.c.rate * (w.c.finish - w.c.lastUpdate)) ≤ SCALE * F
  cap : w.c.perToken + SCALE * (w.c.rate * (w.c.finish - w.c.lastUpdate)) ≤ SCALE * F
  led : Verif.total w.ledger < U128
  held : F ≤ getD0 w.ledger w.self + P
  pwf : AMap.WF w.c.pending

theorem Inv.later {w : World} {b b' : Block} {F P : Nat} (h : Inv w b F P) (hb : b.le b') : Inv w b' F P := by
  obtain ⟨hb1, hb2⟩ := hb
  refine ⟨h.wf, h.tot, h.fits, Snap.upTo_mono h.up1 hb1, Snap.upTo_mono h.up2 hb1, h.lf,
    Nat.le_trans h.lb hb1, h.dur, h.ule, h.sync1, ?_, h.money, h.cap, h.led, h.held, h.pwf⟩
  intro a ha
  rcases Nat.eq_or_lt_of_le hb1 with he | hlt
  · exact h.sync2 a (by rw [he]; exact ha)
  · refine absurd ?_ ha
    unfold World.stakeAt World.stake
    rw [Snap.atHeight_future h.up1 hlt]

/-- Either no block has passed since the last update, or the stakes seen are the current ones. -/
theorem Inv.seen {w : World} {b : Block} {F P : Nat} (h : Inv w b F P) :
    applicable w.c b = w.c.lastUpdate ∨
      (w.c.lastUpdate < applicable w.c b ∧ w.c.lastUpdate < w.c.finish ∧
        ∀ x, w.c.lastUpdate < x → w.totalAt x = w.total ∧ ∀ a, w.stakeAt a x = w.stake a) := by
  have h1 := h.lf
  have h2 := h.lb
  by_cases he : applicable w.c b = w.c.lastUpdate
  · exact Or.inl he
  · unfold applicable at he ⊢
    have hlt : w.c.lastUpdate < w.c.finish := by omega
    refine Or.inr ⟨by omega, hlt, fun x hx => ⟨?_, fun a => ?_⟩⟩
    · unfold World.totalAt World.total
      rw [Snap.atHeight_future (h.sync1 hlt).2 hx]
    · unfold World.stakeAt World.stake
      rw [Snap.atHeight_future (h.sync1 hlt).1 hx]

theorem accrued_zero {s : State} {b : Block} {t : Nat} (h : applicable s b = s.lastUpdate) :
    accrued s b t = 0 := by
  unfold accrued; split <;> simp [h]

/-- The stake seen counts as the current stake. -/
theorem Inv.weight {w : World} {b : Block} {F P : Nat} (h : Inv w b F P) (a : Addr) :
    w.stakeAt a b.height * (w.c.perToken + accrued w.c b (w.totalAt b.height) - getD0 w.c.userPerToken a) =
      w.stake a * (w.c.perToken + accrued w.c b (w.totalAt b.height) - getD0 w.c.userPerToken a) := by
  by_cases he : w.stakeAt a b.height = w.stake a
  · rw [he]
  · rcases h.seen with h0 | ⟨h1, _, h2⟩
    · have := h.sync2 a he
      simp [accrued_zero h0, this]
    · exact absurd ((h2 b.height (by unfold applicable at h1; omega)).2 a) he

/-- What accrues per token, times the stakes, is at most the reward of the blocks passed. -/
theorem Inv.accrued_le {w : World} {b : Block} {F P : Nat} (h : Inv w b F P) :
    w.total * accrued w.c b (w.totalAt b.height) ≤
        SCALE * (w.c.rate * (applicable w.c b - w.c.lastUpdate)) ∧
      accrued w.c b (w.totalAt b.height) ≤ SCALE * (w.c.rate * (applicable w.c b - w.c.lastUpdate)) := by
  rcases h.seen with h0 | ⟨h1, _, h2⟩
  · simp [accrued_zero h0]
  · have ht := (h2 b.height (by unfold applicable at h1; omega)).1
    unfold accrued
    split
    · simp
    · rw [ht]
      have e : w.c.rate * (applicable w.c b - w.c.lastUpdate) * SCALE =
        SCALE * (w.c.rate * (applicable w.c b - w.c.lastUpdate)) := Nat.mul_comm _ _
      rw [e]
      exact ⟨Nat.mul_div_le _ _, Nat.div_le_self _ _⟩

theorem applicable_le {s : State} {b : Block} : applicable s b ≤ b.height ∧ applicable s b ≤ s.finish := by
  unfold applicable; omega

theorem lastUpdate_le {w : World} {b : Block} {F P : Nat} (h : Inv w b F P) :
    w.c.lastUpdate ≤ applicable w.c b := by
  have := h.lf; have := h.lb
  unfold applicable; omega

theorem split_rate {s : State} {b : Block} (h : s.lastUpdate ≤ applicable s b) :
    SCALE * (s.rate * (s.finish - s.lastUpdate)) = SCALE * (s.rate * (s.finish - applicable s b)) +
      SCALE * (s.rate * (applicable s b - s.lastUpdate)) := by
  have h2 := (applicable_le (s := s) (b := b)).2
  rw [← Nat.mul_add, ← Nat.mul_add]
  congr 2
  omega

/-- The sum of the unrecorded rewards grows by what accrues on the total. -/
theorem Inv.sum_accrue {w : World} {b : Block} {F P : Nat} (h : Inv w b F P) (x : Nat) :
    AMap.sum (fun a n => n * (w.c.perToken + x - getD0 w.c.userPerToken a)) w.stakes.cur =
      AMap.sum (fun a n => n * (w.c.perToken - getD0 w.c.userPerToken a)) w.stakes.cur + w.total * x := by
  rw [h.tot, ← AMap.sum_mul, ← AMap.sum_add]
  refine AMap.sum_congr (fun a n _ => ?_)
  rw [← Nat.mul_add]
  congr 1
  have := h.ule a
  omega

theorem Inv.update {w : World} {b : Block} {F P : Nat} (h : Inv w b F P) (a : Addr) :
    Inv { w with c := updated w.c b (w.view b) a } b F P := by
  have hwt := h.weight a
  have hacc := h.accrued_le
  have hsum := h.sum_accrue (accrued w.c b (w.totalAt b.height))
  have hl := lastUpdate_le h
  have hsp := split_rate hl
  have hal := applicable_le (s := w.c) (b := b)
  have hseen := h.seen
  have hz := AMap.sum_zero_at h.wf
    (fun k n => n * (w.c.perToken + accrued w.c b (w.totalAt b.height) -
      getD0 (AMap.set w.c.userPerToken a (w.c.perToken + accrued w.c b (w.totalAt b.height))) k))
    (fun k n => n * (w.c.perToken + accrued w.c b (w.totalAt b.height) - getD0 w.c.userPerToken k)) a
    (by intro v; simp [getD0_set])
    (by intro k v hk; simp [getD0_set, Ne.symm hk])
  have hat : AMap.at? (fun k n => n * (w.c.perToken + accrued w.c b (w.totalAt b.height) -
      getD0 w.c.userPerToken k)) w.stakes.cur a =
      w.stake a * (w.c.perToken + accrued w.c b (w.totalAt b.height) - getD0 w.c.userPerToken a) := by
    unfold AMap.at? World.stake Snap.get; cases AMap.get w.stakes.cur a <;> simp
  have hps := total_set w.c.pending a (getD0 w.c.pending a +
    earned w.c (w.view b) a (w.c.perToken + accrued w.c b (w.totalAt b.height)))
  have he : SCALE * earned w.c (w.view b) a (w.c.perToken + accrued w.c b (w.totalAt b.height)) ≤
      w.stake a * (w.c.perToken + accrued w.c b (w.totalAt b.height) - getD0 w.c.userPerToken a) := by
    rw [← hwt]; exact Nat.mul_div_le _ _
  refine ⟨h.wf, h.tot, h.fits, h.up1, h.up2, hal.2, hal.1, h.dur, ?_, ?_, ?_, ?_, ?_, h.led, h.held,
    AMap.WF_set h.pwf _ _⟩
  · intro q
    simp only [updated, getD0_set]
    have := h.ule q
    have hv : (w.view b).total = w.totalAt b.height := rfl
    split
    · exact Nat.le_refl _
    · omega
  · intro hlt
    simp only [updated] at hlt ⊢
    rcases hseen with h0 | ⟨h1, h2, _⟩
    · rw [h0] at hlt ⊢; exact h.sync1 hlt
    · exact ⟨Snap.upTo_mono (h.sync1 h2).1 hl, Snap.upTo_mono (h.sync1 h2).2 hl⟩
  · intro q hq
    have hq' : w.stakeAt q b.height ≠ w.stake q := hq
    simp only [updated, getD0_set]
    split
    · rfl
    · rcases hseen with h0 | ⟨h1, _, h2⟩
      · rw [accrued_zero h0, h.sync2 q hq', Nat.add_zero]
      · exact absurd ((h2 b.height (by omega)).2 q) hq'
  · have hm := h.money
    show SCALE * (Verif.total (AMap.set w.c.pending a (getD0 w.c.pending a +
        earned w.c (w.view b) a (w.c.perToken + accrued w.c b (w.totalAt b.height)))) + P) +
      AMap.sum (fun k n => n * (w.c.perToken + accrued w.c b (w.totalAt b.height) -
        getD0 (AMap.set w.c.userPerToken a (w.c.perToken + accrued w.c b (w.totalAt b.height))) k))
        w.stakes.cur + SCALE * (w.c.rate * (w.c.finish - applicable w.c b)) ≤ SCALE * F
    have e : Verif.total (AMap.set w.c.pending a (getD0 w.c.pending a +
        earned w.c (w.view b) a (w.c.perToken + accrued w.c b (w.totalAt b.height)))) =
      Verif.total w.c.pending + earned w.c (w.view b) a (w.c.perToken + accrued w.c b (w.totalAt b.height)) := by
      omega
    rw [e]
    have e2 : SCALE * (Verif.total w.c.pending +
        earned w.c (w.view b) a (w.c.perToken + accrued w.c b (w.totalAt b.height)) + P) =
      SCALE * (Verif.total w.c.pending + P) +
        SCALE * earned w.c (w.view b) a (w.c.perToken + accrued w.c b (w.totalAt b.height)) := by ring
    rw [e2]
    omega
  · have hc := h.cap
    show w.c.perToken + accrued w.c b (w.totalAt b.height) +
      SCALE * (w.c.rate * (w.c.finish - applicable w.c b)) ≤ SCALE * F
    omega

theorem view_record {w w1 : World} {b : Block} {a : Addr} {n : Nat} (h1 : w.stakes.UpTo b.height)
    (h2 : w.totals.UpTo b.height) (hw : recordStake w b a n = .ok w1) :
    w1.view b = w.view b := by
  obtain ⟨_, rfl⟩ := recordStake_inv hw
  unfold World.view World.totalAt World.stakeAt
  simp only [Snap.atHeight_save h1 (Nat.le_refl _), Snap.atHeight_save h2 (Nat.le_refl _)]

theorem Inv.stake_le {w : World} {b : Block} {F P : Nat} (h : Inv w b F P) (a : Addr) :
    w.stake a ≤ w.total := by
  rw [h.tot]; exact getD0_le_total w.stakes.cur a

/-- Recording a stake after the update of that staker. -/
theorem Inv.record {w : World} {b : Block} {F P : Nat} (h : Inv w b F P) {a : Addr} {n : Nat}
    (hu : getD0 w.c.userPerToken a = w.c.perToken) (hl : w.c.lastUpdate = applicable w.c b)
    (hn : w.total - w.stake a + n < U128) :
    Inv { w with stakes := w.stakes.save a n b.height,
                 totals := w.totals.save () (w.total - w.stake a + n) b.height } b F P := by
  have hle := h.stake_le a
  have ht : World.total { w with stakes := w.stakes.save a n b.height
                                 totals := w.totals.save () (w.total - w.stake a + n) b.height } = w.total - w.stake a + n := by
    simp [World.total, Snap.get_save]
  have hs : ∀ q, World.stake { w with stakes := w.stakes.save a n b.height
                                      totals := w.totals.save () (w.total - w.stake a + n) b.height } q =
      if a = q then n else w.stake q := by
    intro q
    simp only [World.stake, Snap.get_save]
    split <;> rfl
  have hts := total_set w.stakes.cur a n
  have hg : getD0 w.stakes.cur a = w.stake a := rfl
  refine ⟨AMap.WF_set h.wf a n, ?_, ?_, Snap.upTo_save h.up1 (Nat.le_refl _),
    Snap.upTo_save h.up2 (Nat.le_refl _), h.lf, h.lb, h.dur, h.ule, ?_, ?_, ?_, h.cap, h.led, h.held, h.pwf⟩
  · rw [ht]
    show _ = Verif.total (AMap.set w.stakes.cur a n)
    have := h.tot
    omega
  · rw [ht]; exact hn
  · intro hlt
    have hlt' : w.c.lastUpdate < w.c.finish := hlt
    have e : w.c.lastUpdate = b.height := by unfold applicable at hl; omega
    show (w.stakes.save a n b.height).UpTo w.c.lastUpdate ∧
      (w.totals.save () (w.total - w.stake a + n) b.height).UpTo w.c.lastUpdate
    rw [e]
    exact ⟨Snap.upTo_save h.up1 (Nat.le_refl _), Snap.upTo_save h.up2 (Nat.le_refl _)⟩
  · intro q hq
    rw [hs] at hq
    by_cases hqa : a = q
    · subst hqa; exact hu
    · rw [if_neg hqa] at hq
      refine h.sync2 q ?_
      intro he
      apply hq
      rw [← he]
      unfold World.stakeAt
      simp only [Snap.atHeight_save h.up1 (Nat.le_refl _)]
  · have hm := h.money
    have hss := AMap.sum_set (fun q n => n * (w.c.perToken - getD0 w.c.userPerToken q)) w.stakes.cur a n
    have e1 : AMap.at? (fun q n => n * (w.c.perToken - getD0 w.c.userPerToken q)) w.stakes.cur a = 0 := by
      unfold AMap.at?; split <;> simp [hu]
    rw [hu, Nat.sub_self, Nat.mul_zero, e1] at hss
    show SCALE * (Verif.total w.c.pending + P) +
      AMap.sum (fun a n => n * (w.c.perToken - getD0 w.c.userPerToken a)) (AMap.set w.stakes.cur a n) +
      SCALE * (w.c.rate * (w.c.finish - w.c.lastUpdate)) ≤ SCALE * F
    omega

theorem Inv.congr_c {w w' : World} {b : Block} {F P : Nat} (h : Inv w b F P) (hs : SameRewards w.c w'.c)
    (self : w'.self = w.self) (stakes : w'.stakes = w.stakes) (totals : w'.totals = w.totals)
    (hl : Verif.total w'.ledger < U128) (hle : getD0 w.ledger w.self ≤ getD0 w'.ledger w.self) :
    Inv w' b F P := by
  obtain ⟨c, sf, l, st, t⟩ := w
  obtain ⟨c', sf', l', st', t'⟩ := w'
  simp only at hs self stakes totals hl hle
  subst self stakes totals
  obtain ⟨_, _, h3, h4, h5, h6, h7, h8, h9⟩ := hs
  refine ⟨h.wf, h.tot, h.fits, h.up1, h.up2, ?_, ?_, h9 h.dur, ?_, ?_, ?_, ?_, ?_, hl, ?_, by simp only [h7]; exact h.pwf⟩
  · simp only [h3, h6]; exact h.lf
  · simp only [h6]; exact h.lb
  · simp only [h8, h5]; exact h.ule
  · simp only [h3, h6]; exact h.sync1
  · simp only [h8, h5]; exact h.sync2
  · simp only [h3, h4, h5, h6, h7, h8]; exact h.money
  · simp only [h3, h4, h5, h6]; exact h.cap
  · have := h.held; simp only at this ⊢; omega

theorem Inv.claim {w : World} {b : Block} {F P : Nat} (h : Inv w b F P) {a : Addr} {l : Ledger Addr}
    (ha : a ≠ w.self) (hl : w.ledger.move w.self a (getD0 w.c.pending a) = .ok l) :
    Inv { w with c := { w.c with pending := AMap.set w.c.pending a 0 }, ledger := l } b F
      (P + getD0 w.c.pending a) := by
  have hts := total_set w.c.pending a 0
  have hg := getD0_le_total w.c.pending a
  have hm := Ledger.move_get hl (Ne.symm ha) w.self
  simp only [if_true] at hm
  refine ⟨h.wf, h.tot, h.fits, h.up1, h.up2, h.lf, h.lb, h.dur, h.ule, h.sync1, h.sync2, ?_, h.cap, ?_, ?_,
    AMap.WF_set h.pwf _ _⟩
  · have := h.money
    have e : Verif.total (AMap.set w.c.pending a 0) + (P + getD0 w.c.pending a) =
      Verif.total w.c.pending + P := by omega
    simp only
    rw [e]
    exact this
  · simp only; rw [Ledger.move_total hl]; exact h.led
  · have := h.held
    simp only
    rw [hm.2]
    omega

theorem Inv.fund {w : World} {b : Block} {F P : Nat} (h : Inv w b F P) {a : Addr} {n : Nat}
    {l : Ledger Addr} (ha : a ≠ w.self) (hf : w.c.finish ≤ b.height) (hlu : w.c.lastUpdate = applicable w.c b)
    (hl : w.ledger.move a w.self n = .ok l) :
    Inv { w with c := { w.c with finish := b.height + w.c.duration, rate := n / w.c.duration,
                                 lastUpdate := b.height }, ledger := l } b (F + n) P := by
  have hm := Ledger.move_other hl (Ne.symm ha)
  simp only [if_true] at hm
  have e0 : w.c.finish - w.c.lastUpdate = 0 := by unfold applicable at hlu; omega
  have e1 : n / w.c.duration * (b.height + w.c.duration - b.height) ≤ n := by
    rw [Nat.add_sub_cancel_left]; exact Nat.div_mul_le_self _ _
  have e2 := Nat.mul_le_mul_left SCALE e1
  refine ⟨h.wf, h.tot, h.fits, h.up1, h.up2, by simp, Nat.le_refl _, h.dur, h.ule, ?_, h.sync2, ?_, ?_, ?_, ?_,
    h.pwf⟩
  · intro _; exact ⟨h.up1, h.up2⟩
  · have := h.money
    rw [e0] at this
    simp only
    rw [Nat.mul_add SCALE F n]
    simp only [Nat.mul_zero, Nat.add_zero] at this
    omega
  · have := h.cap
    rw [e0] at this
    simp only
    rw [Nat.mul_add SCALE F n]
    simp only [Nat.mul_zero, Nat.add_zero] at this
    omega
  · simp only; rw [Ledger.move_total hl]; exact h.led
  · have := h.held
    simp only
    rw [hm]
    omega

theorem updated_user (s : State) (b : Block) (k : Stakes) (a : Addr) :
    getD0 (updated s b k a).userPerToken a = (updated s b k a).perToken := by
  simp [updated, getD0_set]

theorem funded_other {w w' : World} {b : Block} {call : Call} {out : Pay}
    {log : List (Ev World Block Call Pay)} (h : ∀ s n, call ≠ .fund s n) :
    funded (⟨w, b, call, out, w'⟩ :: log) = funded log := by
  cases call with
  | fund s n => exact absurd rfl (h s n)
  | _ => rfl

theorem paidOut_other {w w' : World} {b : Block} {call : Call} {out : Pay}
    {log : List (Ev World Block Call Pay)} (h : ∀ s, call ≠ .exec s .claim) :
    paidOut (⟨w, b, call, out, w'⟩ :: log) = paidOut log := by
  cases call with
  | exec s m => cases m with
    | claim => exact absurd rfl (h s)
    | _ => rfl
  | _ => rfl

theorem inv_step {w w' : World} {b b' : Block} {call : Call} {out : Pay}
    {log : List (Ev World Block Call Pay)} (hi : Inv w b (funded log) (paidOut log)) (hb : b.le b')
    (hs : sys.step w b' call = .ok (w', out)) :
    Inv w' b' (funded (⟨w, b', call, out, w'⟩ :: log)) (paidOut (⟨w, b', call, out, w'⟩ :: log)) := by
  have hi := hi.later hb
  cases step_effect hs with
  | other hsr self stakes totals hc =>
    have key : funded (⟨w, b', call, none, w'⟩ :: log) = funded log ∧
        paidOut (⟨w, b', call, none, w'⟩ :: log) = paidOut log ∧
        Verif.total w'.ledger < U128 ∧ getD0 w.ledger w.self ≤ getD0 w'.ledger w.self := by
      rcases hc with ⟨s, m, rfl, hm, hl⟩ | ⟨s, t, n, rfl, hne, hl, _⟩ | ⟨t, n, rfl, hlt, hl, _⟩ |
        ⟨s, n, rfl, hne, hl, _⟩
      · refine ⟨funded_other (by simp), paidOut_other (by simp [hm]), ?_, ?_⟩
        · rw [hl]; exact hi.led
        · rw [hl]
      · refine ⟨funded_other (by simp), paidOut_other (by simp), ?_, ?_⟩
        · rw [Ledger.move_total hl]; exact hi.led
        · rw [Ledger.move_other hl (Ne.symm hne)]; omega
      · refine ⟨funded_other (by simp), paidOut_other (by simp), ?_, ?_⟩
        · rw [Ledger.credit_total hl]; exact hlt
        · rw [Ledger.credit_get hl]; split
          · rename_i e; subst e; omega
          · exact Nat.le_refl _
      · refine ⟨funded_other (by simp), paidOut_other (by simp), ?_, ?_⟩
        · have := Ledger.debit_total hl; have := hi.led; omega
        · rw [Ledger.debit_get hl, if_neg hne]
    rw [key.1, key.2.1]
    exact hi.congr_c hsr self stakes totals key.2.2.1 key.2.2.2
  | claim ha hu h0 hl =>
    rename_i a l
    have hup := hi.update a
    have hcl := hup.claim (a := a) (l := l) ha hl
    have hm := Ledger.move_get hl (Ne.symm ha) w.self
    simp only [if_true] at hm
    rw [funded_other (by simp)]
    have e : paidOut (⟨w, b', .exec a .claim, some (a, getD0 (updated w.c b' (w.view b') a).pending a),
        { w with c := { updated w.c b' (w.view b') a with
            pending := AMap.set (updated w.c b' (w.view b') a).pending a 0 }, ledger := l }⟩ :: log) =
        paidOut log + getD0 (updated w.c b' (w.view b') a).pending a := by
      simp only [paidOut, coins]
      omega
    rw [e]
    exact hcl
  | fund ha ho hu hf hd hr hl =>
    rename_i a n l
    have hup := hi.update a
    have hcl := hup.fund (a := a) (l := l) (n := n) ha hf rfl hl
    rw [paidOut_other (by simp)]
    exact hcl
  | stake hw hu =>
    rename_i a n w1
    have hv := view_record hi.up1 hi.up2 hw
    obtain ⟨hn, rfl⟩ := recordStake_inv hw
    rw [funded_other (by simp), paidOut_other (by simp)]
    have hup := hi.update a
    have := hup.record (a := a) (n := n) (updated_user _ _ _ _) rfl hn
    rw [hv]
    exact this

theorem inv_reach {w : World} {b : Block} {log : List (Ev World Block Call Pay)}
    (h : sys.Reach w b log) : Inv w b (funded log) (paidOut log) := by
  refine Sys.Reach.induct (P := fun w b log => Inv w b (funded log) (paidOut log)) ?_ ?_ h
  · intro b w hi
    obtain ⟨⟨o, s, t, d, hc⟩, h1, h2, h3, h4, h5, h6⟩ := hi
    simp only [instantiate, bind_ok, require_ok, decide_eq_true_eq, Except.ok.injEq] at hc
    obtain ⟨_, hd, hc⟩ := hc
    refine ⟨h1, h2, h3, h4, h5, ?_, ?_, ?_, ?_, ?_, ?_, ?_, ?_, h6, by simp [funded],
      by rw [← hc]; exact AMap.WF_nil⟩ <;> rw [← hc]
    · simp
    · exact hd
    · intro a; simp [getD0, AMap.get]
    · simp
    · intro a _; simp [getD0, AMap.get]
    · have : AMap.sum (fun a n => n * (0 - getD0 ([] : AMap Addr Nat) a)) w.stakes.cur = 0 := by
        rw [show (fun (a : Addr) (n : Nat) => n * (0 - getD0 ([] : AMap Addr Nat) a)) = fun _ n => n * 0 from by
          funext a n; simp, AMap.sum_mul]; simp
      simp only [this, Verif.total, funded, paidOut]
      simp
    · simp
  · intro w b log b' call out w' _ hi hb hs
    exact inv_step hi hb hs

end Verif.ExternalRewards
