import Verif.Proofs.DaoRewardsHistory
/-!
# Rewards distributor: how long funds last
-/

namespace Verif.DaoRewards
open Spec.DaoRewards

/-- What updates of members leave alone in a distribution. -/
def core (d : Dist) : Rate × Expiration × Expiration × Nat := (d.epoch.rate, d.epoch.started, d.epoch.ends, d.funded)

/-- All distributions keep that. -/
def Cores (s s' : State) : Prop := ∀ id, (s'.dists.get id).map core = (s.dists.get id).map core

theorem Cores.trans {s s' s'' : State} (h : Cores s s') (h' : Cores s' s'') : Cores s s'' :=
  fun id => (h' id).trans (h id)

theorem cores_update {s s' : State} {b : Block} {ans : Addr → Answer} {a : Addr} {i : Nat}
    (h : updateRewards s b ans a i = .ok s') : Cores s s' := by
  obtain ⟨d, r, n, hd, _, _, rfl⟩ := updateRewards_ok h
  intro id
  by_cases hi : i = id
  · subst hi
    simp only
    rw [AMap.get_set_self, hd, Option.map_some, Option.map_some]
    rfl
  · simp only
    rw [AMap.get_set_ne _ _ hi]

theorem cores_ids {b : Block} {ans : Addr → Answer} {a : Addr} {ids : List Nat} {s s' : State}
    (h : updateIds b ans a ids s = .ok s') : Cores s s' := by
  induction ids generalizing s with
  | nil => simp only [updateIds, Except.ok.injEq] at h; subst h; exact fun _ => rfl
  | cons i ids ih =>
    unfold updateIds at h
    obtain ⟨s1, h1, h2⟩ := (bind_ok _ _ _).mp h
    exact (cores_update h1).trans (ih h2)

theorem cores_members {b : Block} {ans : Addr → Answer} {ids : List Nat} {as : List Addr} {s s' : State}
    (h : updateMembers b ans ids as s = .ok s') : Cores s s' := by
  induction as generalizing s with
  | nil => simp only [updateMembers, Except.ok.injEq] at h; subst h; exact fun _ => rfl
  | cons a as ih =>
    unfold updateMembers at h
    obtain ⟨s1, h1, h2⟩ := (bind_ok _ _ _).mp h
    exact (cores_ids h1).trans (ih h2)

theorem cores_announce {b : Block} {ans : Addr → Answer} {as : List Addr} {hs : List Addr} {s s' : State}
    (h : announce b ans as hs s = .ok s') : Cores s s' := by
  induction hs generalizing s with
  | nil => simp only [announce, Except.ok.injEq] at h; subst h; exact fun _ => rfl
  | cons a hs ih =>
    unfold announce at h
    obtain ⟨s1, h1, h2⟩ := (bind_ok _ _ _).mp h
    obtain ⟨_, _, h1⟩ := execHook_ok h1
    exact (cores_members h1).trans (ih h2)

/-- The whole periods that funds last. -/
theorem per_div {n f a : Nat} (hn : 0 < n) (ha : 0 < a) : per n f a / n = f / a := by
  refine Nat.le_antisymm ?_ ?_
  · rw [Nat.le_div_iff_mul_le ha]; exact per_le hn
  · rw [Nat.le_div_iff_mul_le hn]; exact per_ge ha (Nat.div_mul_le_self _ _)

/-- The end was capped at the last height there is. -/
def Capped (d : Dist) : Prop := d.epoch.ends = .atHeight (U64 - 1)

/-- A linear distribution lasts as many periods as its funds pay for. -/
def Lasts (d : Dist) : Prop :=
  match d.epoch.rate with
  | .linear amount dur _ => 0 < amount ∧ 0 < len dur ∧
      ((d.epoch.started = .never ∧ d.epoch.ends = .never ∧ d.funded = 0) ∨
        ∃ s x, d.epoch.started = pt dur s ∧ d.epoch.ends = pt dur x ∧
          ((cnt dur x - cnt dur s) / len dur = d.funded / amount ∨ Capped d))
  | _ => d.epoch.started = .never ∧ d.epoch.ends = .never

theorem lasts_core {d d' : Dist} (h : core d' = core d) (hl : Lasts d) : Lasts d' := by
  unfold core at h
  simp only [Prod.mk.injEq] at h
  obtain ⟨h1, h2, h3, h4⟩ := h
  unfold Lasts Capped at hl ⊢
  rw [h1, h2, h3, h4]
  exact hl

theorem lasts_fundLinear {d d' : Dist} {b : Block} {t n amount : Nat} {dur : Duration} {c : Bool}
    (hr : d.epoch.rate = .linear amount dur c) (hl : Lasts d) (h : fundLinear d b t n amount dur c = .ok d') :
    Lasts d' ∧ d'.epoch.rate = d.epoch.rate ∧
      ∃ s, d'.epoch.started = pt dur s ∧ d'.epoch.ends = pt dur (s + per (len dur) d'.funded amount * unit dur) := by
  unfold Lasts at hl
  simp only [hr] at hl
  obtain ⟨ha, hlen, hl⟩ := hl
  unfold fundLinear at h
  obtain ⟨d1, hd1, h⟩ := (bind_ok _ _ _).mp h
  obtain ⟨p, hp, h⟩ := (bind_ok _ _ _).mp h
  obtain ⟨ends, he, hf⟩ := (bind_ok _ _ _).mp h
  clear h
  obtain ⟨rfl, _⟩ := fundedPeriod_ok hp
  have hs : ∃ s, d1.epoch.started = pt dur s ∧ d1.epoch.rate = d.epoch.rate := by
    unfold fundLinearStart at hd1
    split at hd1
    · simp only [Except.ok.injEq] at hd1; subst hd1; exact ⟨_, nowAs_mk _ _, rfl⟩
    · rename_i hz
      split at hd1
      · obtain ⟨_, _, hd1⟩ := (bind_ok _ _ _).mp hd1
        obtain ⟨_, _, hd1⟩ := (bind_ok _ _ _).mp hd1
        simp only [Except.ok.injEq] at hd1; subst hd1; exact ⟨_, nowAs_mk _ _, rfl⟩
      · obtain ⟨_, _, hd1⟩ := (bind_ok _ _ _).mp hd1
        simp only [Except.ok.injEq] at hd1; subst hd1
        rcases hl with hl | ⟨s, x, hl, _⟩
        · exact absurd hl.2.2 hz
        · exact ⟨s, hl, rfl⟩
  obtain ⟨s, hs, hr1⟩ := hs
  rw [hs] at he
  have he := add_mk he
  have hc : core d' = (d.epoch.rate, pt dur s, pt dur (s + per (len dur) d1.funded amount * unit dur), d1.funded) := by
    simp only at hf
    split at hf
    · obtain ⟨r, _, hf⟩ := (bind_ok _ _ _).mp hf
      simp only [Except.ok.injEq] at hf; subst hf
      simp only [core, bump, hs, he, hr1]
    · simp only [Except.ok.injEq] at hf; subst hf
      simp only [core, hs, he, hr1]
  simp only [core, Prod.mk.injEq] at hc
  obtain ⟨c1, c2, c3, c4⟩ := hc
  refine ⟨?_, c1, s, c2, by rw [c4]; exact c3⟩
  unfold Lasts
  simp only [c1, hr]
  refine ⟨ha, hlen, Or.inr ⟨s, _, c2, c3, Or.inl ?_⟩⟩
  rw [cnt_add, Nat.add_sub_cancel_left, per_div hlen ha, c4]

theorem lasts_fund {d d' : Dist} {b : Block} {t n : Nat} (hl : Lasts d) (h : fundDist d b t n = .ok d') : Lasts d' := by
  unfold fundDist at h
  rcases hr : d.epoch.rate with _ | _ | ⟨amount, dur, c⟩
  · simp only [hr] at h
    obtain ⟨f, _, h⟩ := (bind_ok _ _ _).mp h
    simp only [Except.ok.injEq] at h; subst h
    unfold Lasts at hl ⊢
    simp only [hr] at hl ⊢
    exact hl
  · simp only [hr] at h
    obtain ⟨f, _, h⟩ := (bind_ok _ _ _).mp h
    obtain ⟨r, _, h⟩ := (bind_ok _ _ _).mp h
    simp only [Except.ok.injEq] at h; subst h
    unfold Lasts at hl ⊢
    simp only [hr] at hl ⊢
    exact hl
  · simp only [hr] at h
    exact (lasts_fundLinear hr hl h).1

theorem lasts_withdraw {d d' : Dist} {b : Block} {n : Nat} (hl : Lasts d) (h : withdrawDist d b = .ok (d', n)) :
    Lasts d' := by
  unfold withdrawDist at h
  obtain ⟨_, _, h⟩ := (bind_ok _ _ _).mp h
  obtain ⟨r, hr, h⟩ := (bind_ok _ _ _).mp h
  obtain ⟨bk, hbk, h⟩ := (bind_ok _ _ _).mp h
  obtain ⟨hle, _⟩ := (sub128_ok _ _ _).mp hbk
  simp only [Except.ok.injEq, Prod.mk.injEq] at h
  obtain ⟨rfl, _⟩ := h
  unfold Lasts at hl ⊢
  rcases hrate : d.epoch.rate with _ | _ | ⟨amount, dur, c⟩
  · simp only [hrate] at hl ⊢
    exact ⟨hl.1, by rw [hl.1]; rfl⟩
  · simp only [hrate] at hl ⊢
    exact ⟨hl.1, by rw [hl.1]; rfl⟩
  · simp only [hrate] at hl ⊢
    obtain ⟨ha, hlen, hl⟩ := hl
    refine ⟨ha, hlen, ?_⟩
    rcases hl with ⟨l1, l2, l3⟩ | ⟨s, x, l1, l2, l3⟩
    · left
      simp only at hle
      exact ⟨l1, by rw [l1]; rfl, by omega⟩
    · right
      rw [l1, endNow_mk] at hr
      unfold totalRewards at hr
      have hr := rewardsUntil_mk (s := s) (y := nowRaw b dur) hrate l1 hlen hr
      refine ⟨s, nowRaw b dur, l1, by rw [l1, endNow_mk], Or.inl ?_⟩
      rw [hr, Nat.mul_div_cancel _ ha]

theorem validate_len {amount : Nat} {dur : Duration} {c : Bool} (h : validate (.linear amount dur c) = .ok ()) :
    0 < amount ∧ 0 < len dur := by
  unfold validate at h
  obtain ⟨_, h1, h2⟩ := (bind_ok _ _ _).mp h
  simp only [require_ok, decide_eq_true_eq, Bool.not_eq_true'] at h1 h2
  refine ⟨by omega, ?_⟩
  cases dur <;> simp [isZero, len] at h2 ⊢ <;> omega

theorem newEnd_cases (dur : Duration) (n : Nat) (b : Block) :
    newEnd b (withLen dur n) = pt dur (nowRaw b dur + n * unit dur) ∨
      (newEnd b (withLen dur n) = .atHeight (U64 - 1) ∧ newEnd b (withLen dur n) = pt dur (U64 - 1) ∧
        U64 ≤ nowRaw b dur + n * unit dur) := by
  cases dur with
  | height m =>
    simp only [withLen, newEnd, pt, nowRaw, unit, Nat.mul_one]
    split
    · exact Or.inl rfl
    · exact Or.inr ⟨rfl, rfl, by omega⟩
  | time m => exact Or.inl rfl

theorem lasts_transition {d d' : Dist} {b : Block} {t : Nat} {rate : Rate} (hl : Lasts d)
    (hv : validate rate = .ok ()) (h : transition d b t rate = .ok d') : Lasts d' := by
  unfold transition at h
  split at h
  · simp only [Except.ok.injEq] at h; subst h; exact hl
  · obtain ⟨r, _, h⟩ := (bind_ok _ _ _).mp h
    obtain ⟨hist, _, h⟩ := (bind_ok _ _ _).mp h
    obtain ⟨y, _, h⟩ := (bind_ok _ _ _).mp h
    obtain ⟨fn, _, h⟩ := (bind_ok _ _ _).mp h
    obtain ⟨e, he, h⟩ := (bind_ok _ _ _).mp h
    simp only [Except.ok.injEq] at h; subst h
    unfold newEpoch at he
    unfold Lasts
    rcases rate with _ | _ | ⟨amount, dur, c⟩
    · simp only [Except.ok.injEq] at he; subst he; exact ⟨rfl, rfl⟩
    · obtain ⟨_, _, he⟩ := (bind_ok _ _ _).mp he
      simp only [Except.ok.injEq] at he; subst he; exact ⟨rfl, rfl⟩
    · obtain ⟨p, hp, he⟩ := (bind_ok _ _ _).mp he
      simp only [Except.ok.injEq] at he; subst he
      obtain ⟨rfl, _⟩ := fundedPeriod_ok hp
      obtain ⟨ha, hlen⟩ := validate_len hv
      simp only
      refine ⟨ha, hlen, Or.inr ?_⟩
      rcases newEnd_cases dur (per (len dur) fn amount) b with hn | ⟨hn, hn', _⟩
      · refine ⟨_, _, nowAs_mk _ _, hn, Or.inl ?_⟩
        rw [cnt_add, Nat.add_sub_cancel_left, per_div hlen ha]
      · exact ⟨_, _, nowAs_mk _ _, hn', Or.inr hn⟩

theorem lasts_new {d : Dist} {rate : Rate} (hv : validate rate = .ok ()) (hf : d.funded = 0)
    (he : d.epoch = { rate := rate, started := .never, ends := .never, earned := 0, updated := .never }) : Lasts d := by
  unfold Lasts
  rw [he]
  rcases rate with _ | _ | ⟨amount, dur, c⟩
  · exact ⟨rfl, rfl⟩
  · exact ⟨rfl, rfl⟩
  · obtain ⟨ha, hlen⟩ := validate_len hv
    exact ⟨ha, hlen, Or.inl ⟨rfl, rfl, hf⟩⟩

theorem cores_lasts {s s' : State} (hc : Cores s s') {id : Nat} (h : ∀ d, s.dists.get id = some d → Lasts d) {d : Dist}
    (hd : s'.dists.get id = some d) : Lasts d := by
  have := hc id
  rw [hd] at this
  cases h0 : s.dists.get id with
  | none => rw [h0] at this; cases this
  | some d0 =>
    rw [h0] at this
    simp only [Option.map_some, Option.some.injEq] at this
    exact lasts_core this (h d0 h0)

theorem lasts_step {w w' : World} {b : Block} {call : Call} {out : List Pay} {id : Nat}
    (h : ∀ d, w.c.dists.get id = some d → Lasts d) (hs : step w b call = .ok (w', out)) :
    ∀ d, w'.c.dists.get id = some d → Lasts d := by
  intro d' hd'
  obtain ⟨he, _⟩ := step_eff id hs
  cases he with
  | quiet hd => rw [hd] at hd'; exact h d' hd'
  | hook ids as hm => exact cores_lasts (cores_members hm) h hd'
  | change vp diffs via hc hne hm => exact cores_lasts (cores_announce hm) h hd'
  | fund d d1 n hd hd1 hf =>
    rw [hd1] at hd'
    simp only [Option.some.injEq] at hd'
    subst hd'
    exact lasts_fund (h d hd) hf
  | claim a coins hc s1 hu hs =>
    refine cores_lasts (cores_update hu) h (d := d') ?_
    rw [hs] at hd'
    exact hd'
  | withdraw a coins hc d d1 n hd hd1 hf =>
    rw [hd1] at hd'
    simp only [Option.some.injEq] at hd'
    subst hd'
    exact lasts_withdraw (h d hd) hf
  | update a coins rate vp hk o dest hc d d1 d2 hd hd1 hu he =>
    rw [hd1] at hd'
    simp only [Option.some.injEq] at hd'
    subst hd'
    refine lasts_core (d := d1) (by unfold core; rw [he.1, he.2.1]) ?_
    cases rate with
    | none => simp only [updateRate, Except.ok.injEq] at hu; subst hu; exact h d hd
    | some rate =>
      unfold updateRate at hu
      obtain ⟨_, hv, hu⟩ := (bind_ok _ _ _).mp hu
      exact lasts_transition (h d hd) hv hu
  | create a coins token rate vp hk o dest hc d0 d n hi hd hd1 hv h0 hf =>
    rw [hd1] at hd'
    simp only [Option.some.injEq] at hd'
    subst hd'
    have hn := lasts_new hv h0.2.2.2.1 h0.2.2.2.2.2
    rcases hf with ⟨_, _, rfl⟩ | ⟨_, hf⟩
    · exact hn
    · exact lasts_fund hn hf

theorem lasts_run {w0 w : World} {b0 b : Block} {log : List Event} (h0 : sys.init b0 w0) (hr : sys.Run w0 b0 log w b)
    {id : Nat} {d : Dist} (hd : w.c.dists.get id = some d) : Lasts d := by
  suffices h : ∀ d, w.c.dists.get id = some d → Lasts d from h d hd
  clear hd
  induction hr with
  | refl =>
    intro d hd
    rw [h0.2.1] at hd
    cases hd
  | step hr hb hs ih => exact lasts_step ih hs

end Verif.DaoRewards
