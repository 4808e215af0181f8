import Verif.Proofs.DaoRewardsPeriod
import Verif.Proofs.DaoRewardsAccrual
import Verif.Props.DaoRewards
import Mathlib.Data.List.Dedup
/-!
# C99: the funds of a distribution last as long as its rate says, and a claim pays what is shown
-/

namespace Verif.DaoRewards
open Spec.DaoRewards
open ExternalRewards (add256)

variable {w0 w w' : World} {b0 b : Block} {log : List Event} {id : Nat} {d d' : Dist}

theorem clock_now (b : Block) (dur : Duration) : clock b dur = nowAs b dur := by cases dur <;> rfl

theorem lasts_pt {dur : Duration} {s x : Nat} (hs : d.epoch.started = pt dur s) (hx : d.epoch.ends = pt dur x) :
    lasts d = cnt dur x - cnt dur s := by
  unfold lasts
  rw [hs, hx]
  cases dur <;> rfl

/-- C99: in every history, the time from the start to the end of a linear distribution has exactly as many whole periods
as its funds pay for. (The end of a new rate is capped at the last height there is.) -/
theorem C99_lasts (h0 : sys.init b0 w0) (hr : sys.Run w0 b0 log w b) (hd : w.c.dists.get id = some d)
    {amount : Nat} {dur : Duration} {c : Bool} (hrate : d.epoch.rate = .linear amount dur c)
    (hcap : d.epoch.ends ≠ .atHeight (U64 - 1)) :
    0 < amount ∧ 0 < units dur ∧ lasts d / units dur = d.funded / amount := by
  have hl := lasts_run h0 hr hd
  unfold Lasts at hl
  simp only [hrate] at hl
  obtain ⟨ha, hlen, hl⟩ := hl
  rw [units_len]
  refine ⟨ha, hlen, ?_⟩
  rcases hl with ⟨l1, l2, l3⟩ | ⟨s, x, l1, l2, l3 | l3⟩
  · rw [l3]
    unfold lasts
    rw [l1]
    simp
  · rw [lasts_pt l1 l2, l3]
  · exact absurd l3 hcap

/-- The bounds on how long funds last. -/
theorem per_bounds {n f a : Nat} (hn : 0 < n) (ha : 0 < a) :
    per n f a * a ≤ n * f ∧ n * f * DEC_ONE < ((per n f a + 1) * DEC_ONE + n) * a := by
  unfold per
  have hD := DEC_ONE_pos
  generalize hq : f * DEC_ONE / a = q
  have h1 : q * a ≤ f * DEC_ONE := by rw [← hq]; exact Nat.div_mul_le_self _ _
  have h2 : f * DEC_ONE < (q + 1) * a := by
    rw [← hq, Nat.mul_comm (_ + 1)]; exact Nat.lt_mul_div_succ _ ha
  have h3 : n * q / DEC_ONE * DEC_ONE ≤ n * q := Nat.div_mul_le_self _ _
  have h4 : n * q < (n * q / DEC_ONE + 1) * DEC_ONE := by
    rw [Nat.mul_comm (n * q / DEC_ONE + 1)]; exact Nat.lt_mul_div_succ _ hD
  generalize n * q / DEC_ONE = p at h3 h4
  refine ⟨?_, ?_⟩
  · refine Nat.le_of_mul_le_mul_right ?_ hD
    calc p * a * DEC_ONE = p * DEC_ONE * a := by rw [Nat.mul_right_comm]
      _ ≤ n * q * a := Nat.mul_le_mul_right _ h3
      _ = n * (q * a) := by rw [Nat.mul_assoc]
      _ ≤ n * (f * DEC_ONE) := Nat.mul_le_mul_left _ h1
      _ = n * f * DEC_ONE := by rw [Nat.mul_assoc]
  · calc n * f * DEC_ONE = n * (f * DEC_ONE) := by rw [Nat.mul_assoc]
      _ < n * ((q + 1) * a) := Nat.mul_lt_mul_of_pos_left h2 hn
      _ = (n * q + n) * a := by rw [← Nat.mul_assoc, Nat.mul_add, Nat.mul_one]
      _ ≤ ((p + 1) * DEC_ONE + n) * a := Nat.mul_le_mul_right _ (by omega)

theorem fundLinear_full {t n amount : Nat} {dur : Duration} {c : Bool}
    (hr : d.epoch.rate = .linear amount dur c) (hl : Lasts d) (h : fundLinear d b t n amount dur c = .ok d') :
    d'.epoch.rate = d.epoch.rate ∧ d'.funded = (if Over d b c then n else d.funded + n) ∧
      d'.epoch.started = (if Over d b c then clock b dur else d.epoch.started) ∧
      lasts d' = per (len dur) d'.funded amount ∧ 0 < amount ∧ 0 < len dur := by
  obtain ⟨_, c1, s, c2, c3⟩ := lasts_fundLinear hr hl h
  have hl' := hl
  unfold Lasts at hl'
  simp only [hr] at hl'
  refine ⟨c1, ?_⟩
  rw [lasts_pt c2 c3, cnt_add, Nat.add_sub_cancel_left]
  suffices hx : d'.funded = (if Over d b c then n else d.funded + n) ∧
      d'.epoch.started = (if Over d b c then clock b dur else d.epoch.started) from
    ⟨hx.1, hx.2, rfl, hl'.1, hl'.2.1⟩
  unfold fundLinear at h
  obtain ⟨d1, hd1, h⟩ := (bind_ok _ _ _).mp h
  obtain ⟨p, hp, h⟩ := (bind_ok _ _ _).mp h
  obtain ⟨ends, he, h⟩ := (bind_ok _ _ _).mp h
  have hf : d'.funded = d1.funded ∧ d'.epoch.started = d1.epoch.started := by
    simp only at h
    split at h
    · obtain ⟨r, _, h⟩ := (bind_ok _ _ _).mp h
      simp only [Except.ok.injEq] at h; subst h
      exact ⟨rfl, rfl⟩
    · simp only [Except.ok.injEq] at h; subst h
      exact ⟨rfl, rfl⟩
  rw [hf.1, hf.2, clock_now]
  unfold fundLinearStart at hd1
  split at hd1
  · rename_i hz
    simp only [Except.ok.injEq] at hd1; subst hd1
    have ho : Over d b c := Or.inl hz
    rw [if_pos ho, if_pos ho]
    exact ⟨rfl, rfl⟩
  · rename_i hz
    split at hd1
    · rename_i hx
      simp only [Bool.and_eq_true, Bool.not_eq_true'] at hx
      obtain ⟨_, _, hd1⟩ := (bind_ok _ _ _).mp hd1
      obtain ⟨_, _, hd1⟩ := (bind_ok _ _ _).mp hd1
      simp only [Except.ok.injEq] at hd1; subst hd1
      have ho : Over d b c := Or.inr hx
      rw [if_pos ho, if_pos ho]
      exact ⟨rfl, rfl⟩
    · rename_i hx
      simp only [Bool.and_eq_true, Bool.not_eq_true'] at hx
      obtain ⟨f, hf, hd1⟩ := (bind_ok _ _ _).mp hd1
      obtain ⟨_, rfl⟩ := (add128_ok _ _ _).mp hf
      simp only [Except.ok.injEq] at hd1; subst hd1
      have ho : ¬ Over d b c := by rintro (h | h); exacts [hz h, hx h]
      rw [if_neg ho, if_neg ho]
      exact ⟨rfl, rfl⟩

/-- C99: funding a linear distribution adds the amount to its funds and prolongs it, or starts it anew in this block when
it is over. Its length is then the time its funds pay for, up to one block or second and the precision of the division. -/
theorem C99_fund (h0 : sys.init b0 w0) (hr : sys.Run w0 b0 log w b) {b' : Block} {call : Call} {out : List Pay} {n : Nat}
    (hs : sys.step w b' call = .ok (w', out))
    (hc : (∃ a i x, call = .exec a [(x, n)] (.fund i) ∧ target w i = id) ∨
      ∃ t a i, call = .send t a n i ∧ target w i = id)
    (hd : w.c.dists.get id = some d) {amount : Nat} {dur : Duration} {c : Bool}
    (hrate : d.epoch.rate = .linear amount dur c) :
    ∃ d', w'.c.dists.get id = some d' ∧ d'.epoch.rate = d.epoch.rate ∧
      d'.funded = (if Over d b' c then n else d.funded + n) ∧
      d'.epoch.started = (if Over d b' c then clock b' dur else d.epoch.started) ∧
      lasts d' * amount ≤ units dur * d'.funded ∧
      units dur * d'.funded * DEC_ONE < ((lasts d' + 1) * DEC_ONE + units dur) * amount := by
  have hl := lasts_run h0 hr hd
  replace hs : step w b' call = .ok (w', out) := hs
  suffices hx : ∃ d', w'.c.dists.get id = some d' ∧ fundDist d b' (w.answers b' d.vp).total n = .ok d' by
    obtain ⟨d', hd', hf⟩ := hx
    unfold fundDist at hf
    simp only [hrate] at hf
    obtain ⟨c1, c2, c3, c4, ha, hlen⟩ := fundLinear_full hrate hl hf
    rw [units_len]
    exact ⟨d', hd', c1, c2, c3, by rw [c4]; exact (per_bounds hlen ha).1, by rw [c4]; exact (per_bounds hlen ha).2⟩
  rcases hc with ⟨a, i, x, rfl, hi⟩ | ⟨t, a, i, rfl, hi⟩
  · unfold step at hs
    obtain ⟨_, _, hs⟩ := (bind_ok _ _ _).mp hs
    obtain ⟨_, _, hs⟩ := (bind_ok _ _ _).mp hs
    simp only at hs
    obtain ⟨_, _, hs⟩ := (bind_ok _ _ _).mp hs
    obtain ⟨_, _, hs⟩ := (bind_ok _ _ _).mp hs
    obtain ⟨r, hx, hs⟩ := (bind_ok _ _ _).mp hs
    obtain ⟨_, _, hs⟩ := (bind_ok _ _ _).mp hs
    simp only [Except.ok.injEq, Prod.mk.injEq] at hs
    obtain ⟨rfl, _⟩ := hs
    simp only [exec] at hx
    obtain ⟨s1, hs1, hx⟩ := (bind_ok _ _ _).mp hx
    simp only [Except.ok.injEq] at hx
    subst hx
    unfold execFundNative at hs1
    unfold target at hi
    obtain ⟨d0, hd0, hs1⟩ := (bind_ok _ _ _).mp hs1
    rw [hi] at hd0 hs1
    rw [orErr_ok, hd] at hd0
    cases hd0
    obtain ⟨m, hm, hs1⟩ := (bind_ok _ _ _).mp hs1
    have hm : m = n := by
      unfold nativeFunds at hm
      split at hm
      · simp only [mustPay] at hm
        split at hm
        · simp only [Except.ok.injEq] at hm; exact hm.symm
        · cases hm
      · cases hm
    rw [hm] at hs1
    unfold execFund at hs1
    obtain ⟨_, _, hs1⟩ := (bind_ok _ _ _).mp hs1
    obtain ⟨d', hf, hs1⟩ := (bind_ok _ _ _).mp hs1
    simp only [Except.ok.injEq] at hs1
    subst hs1
    exact ⟨d', AMap.get_set_self _ _ _, hf⟩
  · unfold step at hs
    obtain ⟨_, _, hs⟩ := (bind_ok _ _ _).mp hs
    obtain ⟨_, _, hs⟩ := (bind_ok _ _ _).mp hs
    simp only at hs
    obtain ⟨_, _, hs⟩ := (bind_ok _ _ _).mp hs
    obtain ⟨_, _, hs⟩ := (bind_ok _ _ _).mp hs
    obtain ⟨s1, hs1, hs⟩ := (bind_ok _ _ _).mp hs
    simp only [Except.ok.injEq, Prod.mk.injEq] at hs
    obtain ⟨rfl, _⟩ := hs
    unfold execReceive at hs1
    unfold target at hi
    obtain ⟨d0, hd0, hs1⟩ := (bind_ok _ _ _).mp hs1
    rw [hi] at hd0 hs1
    rw [orErr_ok, hd] at hd0
    cases hd0
    obtain ⟨_, _, hs1⟩ := (bind_ok _ _ _).mp hs1
    unfold execFund at hs1
    obtain ⟨_, _, hs1⟩ := (bind_ok _ _ _).mp hs1
    obtain ⟨d', hf, hs1⟩ := (bind_ok _ _ _).mp hs1
    simp only [Except.ok.injEq] at hs1
    subst hs1
    exact ⟨d', AMap.get_set_self _ _ _, hf⟩

/-- C99: when the owner gives a distribution another linear rate, it starts anew in this block, and its end is a height
there is: either the funds that are left pay for exactly the whole periods until the end, or the end is the last height
there is. -/
theorem C99_update {b' : Block} {a : Addr} {coins : List (Nat × Nat)} {out : List Pay} {amount : Nat} {dur : Duration}
    {c : Bool} {vp hook dest : Option Addr} {o : Option Bool}
    (hs : sys.step w b' (.exec a coins (.update id (some (.linear amount dur c)) vp hook o dest)) = .ok (w', out))
    (hd : w.c.dists.get id = some d) (hne : d.epoch.rate ≠ .linear amount dur c) :
    ∃ d', w'.c.dists.get id = some d' ∧ d'.epoch.rate = .linear amount dur c ∧ d'.epoch.started = clock b' dur ∧
      (∀ x, d'.epoch.ends = .atHeight x → x < U64) ∧
      (lasts d' / units dur = d'.funded / amount ∨ d'.epoch.ends = .atHeight (U64 - 1)) := by
  replace hs : step w b' (.exec a coins (.update id (some (.linear amount dur c)) vp hook o dest)) = .ok (w', out) := hs
  have hu : ∃ d1 d2, w'.c.dists.get id = some d2 ∧ core d2 = core d1 ∧
      updateRate d b' (w.answers b' d.vp).total (some (.linear amount dur c)) = .ok d1 := by
    unfold step at hs
    obtain ⟨_, _, hs⟩ := (bind_ok _ _ _).mp hs
    obtain ⟨_, _, hs⟩ := (bind_ok _ _ _).mp hs
    simp only at hs
    obtain ⟨_, _, hs⟩ := (bind_ok _ _ _).mp hs
    obtain ⟨_, _, hs⟩ := (bind_ok _ _ _).mp hs
    obtain ⟨r, hx, hs⟩ := (bind_ok _ _ _).mp hs
    obtain ⟨_, _, hs⟩ := (bind_ok _ _ _).mp hs
    simp only [Except.ok.injEq, Prod.mk.injEq] at hs
    obtain ⟨rfl, _⟩ := hs
    simp only [exec] at hx
    obtain ⟨_, _, hx⟩ := (bind_ok _ _ _).mp hx
    obtain ⟨s1, hs1, hx⟩ := (bind_ok _ _ _).mp hx
    simp only [Except.ok.injEq] at hx
    subst hx
    unfold execUpdate at hs1
    obtain ⟨_, _, hs1⟩ := (bind_ok _ _ _).mp hs1
    obtain ⟨d0, hd0, hs1⟩ := (bind_ok _ _ _).mp hs1
    rw [orErr_ok, hd] at hd0
    cases hd0
    obtain ⟨d1, hd1, hs1⟩ := (bind_ok _ _ _).mp hs1
    simp only [Except.ok.injEq] at hs1
    subst hs1
    refine ⟨d1, _, AMap.get_set_self _ _ _, ?_, hd1⟩
    cases hook <;> rfl
  obtain ⟨d1, d2, hd2, hcore, hu⟩ := hu
  simp only [core, Prod.mk.injEq] at hcore
  obtain ⟨e1, e2, e3, e4⟩ := hcore
  refine ⟨d2, hd2, ?_⟩
  unfold lasts
  rw [e1, e2, e3, e4]
  unfold updateRate at hu
  obtain ⟨_, hv, hu⟩ := (bind_ok _ _ _).mp hu
  obtain ⟨ha, hlen⟩ := validate_len hv
  unfold transition at hu
  rw [if_neg hne] at hu
  obtain ⟨r, _, hu⟩ := (bind_ok _ _ _).mp hu
  obtain ⟨hist, _, hu⟩ := (bind_ok _ _ _).mp hu
  obtain ⟨y, _, hu⟩ := (bind_ok _ _ _).mp hu
  obtain ⟨fn, _, hu⟩ := (bind_ok _ _ _).mp hu
  obtain ⟨e, hnew, hu⟩ := (bind_ok _ _ _).mp hu
  simp only [Except.ok.injEq] at hu
  subst hu
  unfold newEpoch at hnew
  obtain ⟨p, hp, hnew⟩ := (bind_ok _ _ _).mp hnew
  simp only [Except.ok.injEq] at hnew
  subst hnew
  obtain ⟨hpe, _⟩ := fundedPeriod_ok hp
  subst hpe
  refine ⟨rfl, (clock_now _ _).symm, ?_, ?_⟩
  · intro x hx
    simp only at hx
    have hU : 0 < U64 := by decide +kernel
    cases dur with
    | height m =>
      simp only [withLen, newEnd] at hx
      split at hx
      · simp only [Expiration.atHeight.injEq] at hx; omega
      · simp only [Expiration.atHeight.injEq] at hx; omega
    | time m => simp only [withLen, newEnd] at hx; cases hx
  · rcases newEnd_cases dur (per (len dur) fn amount) b' with hn | ⟨hn, hn', _⟩
    · left
      have hl := lasts_pt (d := { d with
          epoch := { rate := .linear amount dur c, started := nowAs b' dur,
                     ends := newEnd b' (withLen dur (per (len dur) fn amount)), earned := 0, updated := nowAs b' dur }
          funded := fn, hist := hist }) (nowAs_mk _ _) hn
      unfold lasts at hl
      rw [hl, cnt_add, Nat.add_sub_cancel_left, units_len, per_div hlen ha]
    · exact Or.inr hn

theorem stretch_iff {n f a x : Nat} :
    stretch n f a = .ok x ↔ a ≠ 0 ∧ f * DEC_ONE / a < U128 ∧ per n f a < U64 ∧ x = per n f a := by
  simp only [stretch, bind_ok, require_ok, decide_eq_true_eq, Except.ok.injEq, per]
  constructor
  · rintro ⟨_, h1, _, h2, _, h3, rfl⟩; exact ⟨h1, h2, h3, rfl⟩
  · rintro ⟨h1, h2, h3, rfl⟩; exact ⟨(), h1, (), h2, (), h3, rfl⟩

theorem fundedPeriod_iff {f a : Nat} {dur p : Duration} :
    fundedPeriod f a dur = .ok p ↔
      a ≠ 0 ∧ f * DEC_ONE / a < U128 ∧ per (len dur) f a < U64 ∧ p = withLen dur (per (len dur) f a) := by
  cases dur with
  | height n =>
    simp only [fundedPeriod, bind_ok, stretch_iff, Except.ok.injEq, len, withLen]
    constructor
    · rintro ⟨_, ⟨h1, h2, h3, rfl⟩, rfl⟩; exact ⟨h1, h2, h3, rfl⟩
    · rintro ⟨h1, h2, h3, rfl⟩; exact ⟨_, ⟨h1, h2, h3, rfl⟩, rfl⟩
  | time n =>
    simp only [fundedPeriod, bind_ok, stretch_iff, Except.ok.injEq, len, withLen]
    constructor
    · rintro ⟨_, ⟨h1, h2, h3, rfl⟩, rfl⟩; exact ⟨h1, h2, h3, rfl⟩
    · rintro ⟨h1, h2, h3, rfl⟩; exact ⟨_, ⟨h1, h2, h3, rfl⟩, rfl⟩

theorem add_pt (dur : Duration) (s n : Nat) :
    (pt dur s).add (withLen dur n) = .ok (pt dur (s + n * unit dur)) := by
  cases dur <;> simp only [pt, withLen, Expiration.add, unit, Nat.mul_one]

theorem move_ok_iff {l : Balances} {x y : Token × Addr} {n : Nat} (hxy : x ≠ y) :
    (∃ l', l.move x y n = .ok l') ↔ n ≤ getD0 l x ∧ getD0 l y + n < U128 := by
  have h1 : ∀ l1, l.debit x n = .ok l1 → getD0 l1 y = getD0 l y := by
    intro l1 h
    rw [Ledger.debit_get h, if_neg hxy]
  constructor
  · rintro ⟨l', h⟩
    simp only [Ledger.move, bind_ok] at h
    obtain ⟨l1, h2, h3⟩ := h
    refine ⟨(Ledger.debit_ok.1 h2).1, ?_⟩
    rw [← h1 l1 h2]
    exact (Ledger.credit_ok.1 h3).1
  · rintro ⟨h2, h3⟩
    have h4 : l.debit x n = .ok (AMap.set l x (getD0 l x - n)) := Ledger.debit_ok.2 ⟨h2, rfl⟩
    have h5 := Ledger.credit_ok.2 (⟨by rw [h1 _ h4]; exact h3, rfl⟩ :
      getD0 (AMap.set l x (getD0 l x - n)) y + n < U128 ∧ _ = AMap.set (AMap.set l x (getD0 l x - n)) y _)
    exact ⟨AMap.set (AMap.set l x (getD0 l x - n)) y (getD0 (AMap.set l x (getD0 l x - n)) y + n),
      by simp only [Ledger.move, bind_ok]; exact ⟨_, h4, h5⟩⟩

/-- C99: anybody who is allowed to can fund a linear distribution that was not funded before, unless the ratio of the
amount to the rate or the length exceed the range of the numbers used. -/
theorem C99_fundable (h0 : sys.init b0 w0) (hr : sys.Run w0 b0 log w b) {b' : Block} {a : Addr} {x n : Nat}
    (hd : w.c.dists.get id = some d) {amount : Nat} {dur : Duration} {c : Bool}
    (hrate : d.epoch.rate = .linear amount dur c) (hz : d.funded = 0) (ht : d.token = .native x) (ha : a ≠ w.me)
    (hb : w.now.height < b'.height ∨ w.now = b') (hh : b'.height < U64) :
    (∃ w' out, sys.step w b' (.exec a [(x, n)] (.fund (some id))) = .ok (w', out)) ↔
      n ≠ 0 ∧ n ≤ getD0 w.bal (.native x, a) ∧ getD0 w.bal (.native x, w.me) + n < U128 ∧
      (d.openFunding = true ∨ w.c.ownership.owner = some a) ∧
      n * DEC_ONE / amount < U128 ∧ units dur * (n * DEC_ONE / amount) / DEC_ONE < U64 := by
  have hl := lasts_run h0 hr hd
  unfold Lasts at hl
  simp only [hrate] at hl
  have hne : ((.native x, a) : Token × Addr) ≠ (.native x, w.me) := by
    intro e; simp only [Prod.mk.injEq, true_and] at e; exact ha e
  have hmv := move_ok_iff (l := w.bal) (n := n) hne
  have hfund : (∃ d', fundDist d b' (w.answers b' d.vp).total n = .ok d') ↔
      n * DEC_ONE / amount < U128 ∧ units dur * (n * DEC_ONE / amount) / DEC_ONE < U64 := by
    unfold fundDist
    simp only [hrate]
    unfold fundLinear fundLinearStart
    rw [if_pos hz, ok_bind]
    have hp : per (len dur) n amount = units dur * (n * DEC_ONE / amount) / DEC_ONE := by rw [units_len]; rfl
    constructor
    · rintro ⟨d', h⟩
      obtain ⟨p, hp', _⟩ := (bind_ok _ _ _).mp h
      obtain ⟨_, h1, h2, _⟩ := fundedPeriod_iff.1 hp'
      rw [← hp]
      exact ⟨h1, h2⟩
    · rintro ⟨h1, h2⟩
      rw [← hp] at h2
      have hp' : fundedPeriod (restart d b' dur n d.hist).funded amount dur = .ok (withLen dur (per (len dur) n amount)) :=
        fundedPeriod_iff.2 ⟨Nat.pos_iff_ne_zero.1 hl.1, h1, h2, rfl⟩
      rw [hp', ok_bind]
      have hst : (restart d b' dur n d.hist).epoch.started = pt dur (nowRaw b' dur) := nowAs_mk _ _
      rw [hst, add_pt, ok_bind]
      simp only [hz, ne_eq, not_true_eq_false, decide_false, Bool.and_false, Bool.false_and, Bool.false_eq_true, if_false]
      exact ⟨_, rfl⟩
  have hstep : ∀ w' out, sys.step w b' (.exec a [(x, n)] (.fund (some id))) = .ok (w', out) ↔
      ∃ l d', w.bal.move (.native x, a) (.native x, w.me) n = .ok l ∧ n ≠ 0 ∧
        (d.openFunding = true ∨ w.c.ownership.owner = some a) ∧ fundDist d b' (w.answers b' d.vp).total n = .ok d' ∧
        w' = { w with c := { w.c with dists := w.c.dists.set id d' }, bal := l, now := b' } ∧ out = [] := by
    intro w' out
    have h1 : decide (w.now.height < b'.height ∨ w.now = b') = true := decide_eq_true hb
    have h2 : decide (b'.height < U64) = true := decide_eq_true hh
    have h3 : decide (a ≠ w.me) = true := decide_eq_true ha
    have h4 : orErr (w.c.dists.get id) Err.notFound = .ok d := (orErr_ok _ _ _).2 hd
    simp only [sys, step, require, h1, h2, h3, if_true, ok_bind, pullCoins, exec, execFundNative, Option.getD_some, h4,
      nativeFunds, ht, mustPay, execFund]
    constructor
    · intro h
      obtain ⟨l, hl', h⟩ := (bind_ok _ _ _).mp h
      obtain ⟨l2, hl2, hl'⟩ := (bind_ok _ _ _).mp hl'
      simp only [Except.ok.injEq] at hl'
      obtain ⟨r, hx, h⟩ := (bind_ok _ _ _).mp h
      obtain ⟨s1, hs1, hx⟩ := (bind_ok _ _ _).mp hx
      obtain ⟨m, hm, hs1⟩ := (bind_ok _ _ _).mp hs1
      by_cases hn : n = 0
      · rw [if_neg (by simp [hn])] at hm
        cases hm
      · rw [if_pos ⟨trivial, hn⟩] at hm
        simp only [Except.ok.injEq] at hm
        rw [← hm] at hs1
        obtain ⟨_, hau, hs1⟩ := (bind_ok _ _ _).mp hs1
        obtain ⟨d', hf, hs1⟩ := (bind_ok _ _ _).mp hs1
        simp only [Except.ok.injEq] at hx hs1
        obtain ⟨l3, hl3, h⟩ := (bind_ok _ _ _).mp h
        rw [← hx] at hl3 h
        simp only [payAll, Except.ok.injEq] at hl3 h
        simp only [Prod.mk.injEq] at h
        refine ⟨l, d', by rw [hl2, hl'], hn, ?_, hf, ?_, h.2.symm⟩
        · split at hau
          · rename_i hx
            simp only [Bool.or_eq_true, decide_eq_true_eq] at hx
            exact hx
          · cases hau
        · rw [← h.1, ← hs1, ← hl3]
    · rintro ⟨l, d', hl', hn, hau, hf, rfl, rfl⟩
      have hau' : (d.openFunding || decide (w.c.ownership.owner = some a)) = true := by
        simp only [Bool.or_eq_true, decide_eq_true_eq]; exact hau
      rw [hl', ok_bind, ok_bind, if_pos ⟨trivial, hn⟩, ok_bind, if_pos hau', ok_bind, hf, ok_bind, ok_bind, ok_bind]
      simp only [payAll, ok_bind]
  constructor
  · rintro ⟨w', out, h⟩
    obtain ⟨l, d', h1, h2, h3, h4, _⟩ := (hstep w' out).1 h
    obtain ⟨h5, h6⟩ := hmv.1 ⟨l, h1⟩
    obtain ⟨h7, h8⟩ := hfund.1 ⟨d', h4⟩
    exact ⟨h2, h5, h6, h3, h7, h8⟩
  · rintro ⟨h2, h5, h6, h3, h7, h8⟩
    obtain ⟨l, h1⟩ := hmv.2 ⟨h5, h6⟩
    obtain ⟨d', h4⟩ := hfund.2 ⟨h7, h8⟩
    exact ⟨_, _, (hstep _ _).2 ⟨l, d', h1, h2, h3, h4, rfl, rfl⟩⟩

theorem since_self {x : Expiration} (h : x ≠ .never) :
    since x x = .ok (match x with | .atTime _ => .time 0 | _ => .height 0) := by
  cases x with
  | atHeight n => simp only [since, Nat.lt_irrefl, if_false]
  | atTime n => simp only [since, Nat.lt_irrefl, if_false]
  | never => exact absurd rfl h

/-- Right after an update nothing more was earned. -/
theorem activeEarned_bump {e : Epoch} {t r t' : Nat} (h : activeEarned e b t = .ok r) :
    activeEarned (bump { e with earned := r } b) b t' = .ok r := by
  unfold activeEarned at h ⊢
  rcases hr : e.rate with _ | _ | ⟨amount, dur, c⟩
  · simp only [hr] at h
    simp only [bump, hr]
    exact h
  · simp only [bump, hr]
  · simp only [bump, hr]
    have hlat : ∀ o, capAt e.ends b (capAt e.ends b o) = capAt e.ends b o := by
      intro o; cases e.ends <;> rfl
    unfold latest
    simp only [hlat]
    split
    · rfl
    · rename_i hn
      rw [since_self hn, ok_bind]
      unfold grow
      rw [if_pos]
      split <;> rfl

theorem query_ok {s : State} {ans : Addr → Answer} {a : Addr} {n : Nat} (h : queryPending s b ans a id = .ok n) :
    ∃ d r x, s.dists.get id = some d ∧ activeEarned d.epoch b (ans d.vp).total = .ok r ∧
      add256 r d.hist = .ok (r + d.hist) ∧ accrued ((ans d.vp).of a) (r + d.hist) (getD0 s.accounted (id, a)) = .ok x ∧
      add128 x (getD0 s.pending (id, a)) = .ok n := by
  unfold queryPending at h
  obtain ⟨d, hd, h⟩ := (bind_ok _ _ _).mp h
  obtain ⟨r, hr, h⟩ := (bind_ok _ _ _).mp h
  obtain ⟨t, ht, h⟩ := (bind_ok _ _ _).mp h
  obtain ⟨x, hx, h⟩ := (bind_ok _ _ _).mp h
  have e := add256_ok ht
  rw [e] at ht hx
  exact ⟨d, r, x, (orErr_ok _ _ _).1 hd, hr, ht, hx, h⟩

/-- The storage after a claim. -/
theorem execClaim_iff {s s' : State} {ans : Addr → Answer} {a : Addr} {out : List Pay} :
    execClaim s b ans a id = .ok (s', out) ↔ ∃ n s1 d, n ≠ 0 ∧ queryPending s b ans a id = .ok n ∧
      s.dists.get id = some d ∧ updateRewards s b ans a id = .ok s1 ∧ s' = { s1 with pending := s1.pending.set (id, a) 0 } ∧
      out = [⟨a, d.token, n⟩] := by
  constructor
  · intro h
    unfold execClaim at h
    obtain ⟨s1, hu, h⟩ := (bind_ok _ _ _).mp h
    have hu' := hu
    unfold updateRewards at hu'
    obtain ⟨d, hd, hu'⟩ := (bind_ok _ _ _).mp hu'
    obtain ⟨r, hr, hu'⟩ := (bind_ok _ _ _).mp hu'
    obtain ⟨t, ht, hu'⟩ := (bind_ok _ _ _).mp hu'
    obtain ⟨x, hx, hu'⟩ := (bind_ok _ _ _).mp hu'
    obtain ⟨n, hn, hu'⟩ := (bind_ok _ _ _).mp hu'
    simp only [Except.ok.injEq] at hu'
    have hq : queryPending s b ans a id = .ok n := by
      unfold queryPending
      rw [hd, ok_bind, hr, ok_bind, ht, ok_bind, hx, ok_bind, hn]
    obtain ⟨d1, hd1, h⟩ := (bind_ok _ _ _).mp h
    obtain ⟨_, hz, h⟩ := (bind_ok _ _ _).mp h
    have hp : getD0 s1.pending (id, a) = n := by rw [← hu', getD0_set, if_pos rfl]
    have ht1 : d1.token = d.token := by
      rw [orErr_ok, ← hu'] at hd1
      simp only [AMap.get_set_self, Option.some.injEq] at hd1
      rw [← hd1]
    rw [hp] at hz h
    simp only [require_ok, decide_eq_true_eq] at hz
    simp only [Except.ok.injEq, Prod.mk.injEq] at h
    exact ⟨n, s1, d, hz, hq, (orErr_ok _ _ _).1 hd, hu, h.1.symm, by rw [← h.2, ht1]⟩
  · rintro ⟨n, s1, d, hn, hq, hd, hu, rfl, rfl⟩
    obtain ⟨d0, r, x, hd0, hr, ht, hx, hp⟩ := query_ok hq
    rw [hd] at hd0; cases hd0
    have hu' := hu
    unfold updateRewards at hu'
    rw [(orErr_ok _ _ _).2 hd, ok_bind, hr, ok_bind, ht, ok_bind, hx, ok_bind, hp, ok_bind, Except.ok.injEq] at hu'
    have hpn : getD0 s1.pending (id, a) = n := by rw [← hu', getD0_set, if_pos rfl]
    have hd1 : orErr (s1.dists.get id) Err.notFound = .ok { d with epoch := bump { d.epoch with earned := r } b } := by
      rw [orErr_ok, ← hu']
      exact AMap.get_set_self _ _ _
    unfold execClaim
    rw [hu, ok_bind, hd1, ok_bind, hpn]
    simp only [require, hn, ne_eq, not_false_eq_true, decide_true, if_true, ok_bind]

theorem update_of_query {s : State} {ans : Addr → Answer} {a : Addr} {n : Nat} (h : queryPending s b ans a id = .ok n) :
    ∃ s', updateRewards s b ans a id = .ok s' := by
  obtain ⟨d, r, x, hd, hr, ht, hx, hp⟩ := query_ok h
  unfold updateRewards
  rw [(orErr_ok _ _ _).2 hd, ok_bind, hr, ok_bind, ht, ok_bind, hx, ok_bind, hp, ok_bind]
  exact ⟨_, rfl⟩

theorem claimed_none {s s1 : State} {ans ans' : Addr → Answer} {a : Addr} {n : Nat}
    (hq : queryPending s b ans a id = .ok n) (hu : updateRewards s b ans a id = .ok s1) :
    queryPending { s1 with pending := s1.pending.set (id, a) 0 } b ans' a id = .ok 0 := by
  obtain ⟨d, r, x, hd, hr, ht, hx, hp⟩ := query_ok hq
  unfold updateRewards at hu
  rw [(orErr_ok _ _ _).2 hd, ok_bind, hr, ok_bind, ht, ok_bind, hx, ok_bind, hp, ok_bind, Except.ok.injEq] at hu
  subst hu
  unfold queryPending
  simp only [AMap.get_set_self, getD0_set, if_true]
  have e : orErr (some { d with epoch := bump { d.epoch with earned := r } b }) Err.notFound =
      .ok { d with epoch := bump { d.epoch with earned := r } b } := (orErr_ok _ _ _).2 rfl
  rw [e, ok_bind, activeEarned_bump hr, ok_bind]
  simp only
  rw [ht, ok_bind, accrued_self, ok_bind]
  exact (add128_ok _ _ _).2 ⟨by decide +kernel, rfl⟩

/-- C99: a claim pays the claimer exactly what the contract showed, which is not zero, and leaves nothing to claim in
this block. -/
theorem C99_claim {b' : Block} {a : Addr} {coins : List (Nat × Nat)} {out : List Pay}
    (hs : sys.step w b' (.exec a coins (.claim id)) = .ok (w', out)) :
    ∃ d, w.c.dists.get id = some d ∧ claimable w b' id a ≠ 0 ∧ out = [⟨a, d.token, claimable w b' id a⟩] ∧
      Shows w' b' id a ∧ claimable w' b' id a = 0 ∧
      getD0 w'.bal (d.token, a) = getD0 w.bal (d.token, a) + claimable w b' id a ∧
      getD0 w.bal (d.token, w.me) = getD0 w'.bal (d.token, w.me) + claimable w b' id a := by
  replace hs : step w b' (.exec a coins (.claim id)) = .ok (w', out) := hs
  unfold step at hs
  obtain ⟨_, _, hs⟩ := (bind_ok _ _ _).mp hs
  obtain ⟨_, _, hs⟩ := (bind_ok _ _ _).mp hs
  simp only at hs
  obtain ⟨_, ha, hs⟩ := (bind_ok _ _ _).mp hs
  obtain ⟨l, hl, hs⟩ := (bind_ok _ _ _).mp hs
  obtain ⟨r, hx, hs⟩ := (bind_ok _ _ _).mp hs
  obtain ⟨l2, hl2, hs⟩ := (bind_ok _ _ _).mp hs
  simp only [require_ok, decide_eq_true_eq] at ha
  simp only [exec] at hx
  obtain ⟨_, hco, hx⟩ := (bind_ok _ _ _).mp hx
  simp only [require_ok, decide_eq_true_eq] at hco
  rw [hco] at hl
  simp only [pullCoins, Except.ok.injEq] at hl
  obtain ⟨s', o'⟩ := r
  obtain ⟨n, s1, d, hn, hq, hd, hu, hs1, ho⟩ := execClaim_iff.1 hx
  simp only [Except.ok.injEq, Prod.mk.injEq] at hs
  obtain ⟨hw, hout⟩ := hs
  have hc : claimable w b' id a = n := by unfold claimable; rw [hq]
  have hz := claimed_none (ans' := w'.answers b') hq hu
  rw [← hs1] at hz
  have hwc : w'.c = s' := by rw [← hw]
  have hwb : w'.bal = l2 := by rw [← hw]
  rw [hc]
  refine ⟨d, hd, hn, by rw [← hout, ho], ⟨0, by rw [hwc]; exact hz⟩, by unfold claimable; rw [hwc, hz], ?_⟩
  rw [hwb]
  rw [ho, ← hl] at hl2
  simp only [payAll] at hl2
  obtain ⟨l3, hl3, hl2⟩ := (bind_ok _ _ _).mp hl2
  simp only [Except.ok.injEq] at hl2
  subst hl2
  have hne : ((d.token, w.me) : Token × Addr) ≠ (d.token, a) := by
    intro e; simp only [Prod.mk.injEq, true_and] at e; exact ha e.symm
  obtain ⟨h1, h2⟩ := Ledger.move_get hl3 hne (d.token, a)
  obtain ⟨_, h3⟩ := Ledger.move_get hl3 hne (d.token, w.me)
  rw [if_neg (fun e => hne e.symm), if_pos rfl] at h2
  rw [if_pos rfl] at h3
  exact ⟨h2, by omega⟩

/-- C99: whoever is shown something to claim can claim it, if the contract still has it. -/
theorem C99_claims {b' : Block} {a : Addr} (hd : w.c.dists.get id = some d) (hsh : Shows w b' id a) (ha : a ≠ w.me)
    (hb : w.now.height < b'.height ∨ w.now = b') (hh : b'.height < U64)
    (hroom : getD0 w.bal (d.token, a) + claimable w b' id a < U128) :
    (∃ w' out, sys.step w b' (.exec a [] (.claim id)) = .ok (w', out)) ↔
      claimable w b' id a ≠ 0 ∧ claimable w b' id a ≤ getD0 w.bal (d.token, w.me) := by
  constructor
  · rintro ⟨w', out, h⟩
    obtain ⟨d', hd', h1, _, _, _, _, h2⟩ := C99_claim h
    rw [hd] at hd'; cases hd'
    exact ⟨h1, by omega⟩
  · rintro ⟨h1, h2⟩
    obtain ⟨n, hq⟩ := hsh
    have hc : claimable w b' id a = n := by unfold claimable; rw [hq]
    rw [hc] at h1 h2 hroom
    obtain ⟨s1, hu⟩ := update_of_query hq
    have hx := (execClaim_iff (b := b') (id := id)).2 ⟨n, s1, d, h1, hq, hd, hu, rfl, rfl⟩
    have hne : ((d.token, w.me) : Token × Addr) ≠ (d.token, a) := by
      intro e; simp only [Prod.mk.injEq, true_and] at e; exact ha e.symm
    obtain ⟨l, hl⟩ := (move_ok_iff (l := w.bal) (n := n) hne).2 ⟨h2, hroom⟩
    have d1 : decide (w.now.height < b'.height ∨ w.now = b') = true := decide_eq_true hb
    have d2 : decide (b'.height < U64) = true := decide_eq_true hh
    have d3 : decide (a ≠ w.me) = true := decide_eq_true ha
    refine ⟨{ w with c := { s1 with pending := s1.pending.set (id, a) 0 }, bal := l, now := b' }, [⟨a, d.token, n⟩], ?_⟩
    simp only [sys, step, require, d1, d2, d3, if_true, ok_bind, pullCoins, exec, decide_true, hx, payAll, hl]

theorem le_mapsum {f : Nat → Nat} {l : List Nat} {i : Nat} (h : i ∈ l) : f i ≤ (l.map f).sum := by
  induction l with
  | nil => cases h
  | cons j l ih =>
    rw [List.map_cons, List.sum_cons]
    rcases List.mem_cons.1 h with rfl | h
    · exact Nat.le_add_right _ _
    · exact Nat.le_trans (ih h) (Nat.le_add_left _ _)

/-- C99: in histories without the faults of C45 the contract always has what it shows, so whoever is shown something can
claim it. -/
theorem C99_claims_partial (h0 : sys.init b0 w0) (hr : sys.Run w0 b0 log w b) {b' : Block} {a : Addr}
    (hd : w.c.dists.get id = some d) (hall : ∀ i d', w.c.dists.get i = some d' → d'.token = d.token →
      Announced i log ∧ SameVotes i log ∧ Calm i log)
    (hsh : Shows w b' id a) (hpos : claimable w b' id a ≠ 0) (ha : a ≠ w.me)
    (hb : b.le b') (hb' : b.height < b'.height ∨ b = b') (hh : b'.height < U64)
    (hroom : getD0 w.bal (d.token, a) + claimable w b' id a < U128) :
    ∃ w' out, sys.step w b' (.exec a [] (.claim id)) = .ok (w', out) := by
  have hnow : w.now = b := (winv_run h0 hr).1
  refine (C99_claims hd hsh ha (by rw [hnow]; exact hb') hh hroom).2 ⟨hpos, ?_⟩
  have hmem : ∀ i, i ∈ (w.c.dists.map Prod.fst).dedup.filter
      (fun i => decide ((w.c.dists.get i).map Dist.token = some d.token)) ↔
      ∃ d', w.c.dists.get i = some d' ∧ d'.token = d.token := by
    intro i
    rw [List.mem_filter, List.mem_dedup, decide_eq_true_eq]
    constructor
    · rintro ⟨_, h⟩
      cases hi : w.c.dists.get i with
      | none => rw [hi] at h; cases h
      | some d' => rw [hi] at h; exact ⟨d', rfl, Option.some.inj h⟩
    · rintro ⟨d', h1, h2⟩
      exact ⟨List.mem_map.2 ⟨(i, d'), AMap.mem_of_get h1, rfl⟩, by rw [h1, Option.map_some, h2]⟩
  have hx : ∀ i ∈ (w.c.dists.map Prod.fst).dedup.filter
      (fun i => decide ((w.c.dists.get i).map Dist.token = some d.token)),
      Announced i log ∧ SameVotes i log ∧ Calm i log := by
    intro i hi
    obtain ⟨d', h1, h2⟩ := (hmem i).1 hi
    exact hall i d' h1 h2
  have := C45_backed_partial h0 hr d.token _ ((List.nodup_dedup _).filter _) hmem (fun i hi => (hx i hi).1)
    (fun i hi => (hx i hi).2.1) (fun i hi => (hx i hi).2.2) hb hb' [a] (List.nodup_singleton a)
  refine Nat.le_trans ?_ this
  have hle := le_mapsum (f := fun i => ([a].map (claimable w b' i)).sum) ((hmem id).2 ⟨d, hd, rfl⟩)
  simp only [List.map_cons, List.map_nil, List.sum_cons, List.sum_nil, Nat.add_zero] at hle ⊢
  exact hle

/-- The example: funded with 100 at a rate of 10 every 10 blocks, then with 40 more, the distribution runs for 140 blocks,
and its members claim what they are shown. -/
theorem C99_example : ∃ w b log, sys.Run exWorld ⟨10, 0⟩ log w b ∧ Announced 1 log ∧ SameVotes 1 log ∧ Calm 1 log ∧
    b = ⟨45, 0⟩ ∧ (∃ d, w.c.dists.get 1 = some d ∧ d.epoch.rate = exRate ∧ d.epoch.ends = .atHeight 150 ∧ lasts d = 140 ∧
      d.funded = 140) ∧
    claimable w ⟨50, 0⟩ 1 2 = 22 ∧ getD0 w.bal (.native 0, 7) = 125 := by
  obtain ⟨w, b, log, hr, hp⟩ := Sys.check_run (M := sys) (s := exWorld) (b := ⟨10, 0⟩) (cs := exCalls.take 4)
    (p := fun w b log => exCheck 1 log && decide (b = ⟨45, 0⟩ ∧
      ((w.c.dists.get 1).map (fun d => decide (d.epoch.rate = exRate ∧ d.epoch.ends = .atHeight 150 ∧ lasts d = 140 ∧
        d.funded = 140))) = some true ∧
      claimable w ⟨50, 0⟩ 1 2 = 22 ∧ getD0 w.bal (.native 0, 7) = 125)) (by decide +kernel)
  simp only [Bool.and_eq_true, decide_eq_true_eq] at hp
  obtain ⟨hp, h1, h2, h3⟩ := hp
  obtain ⟨ha, hs, hc⟩ := exCheck_ok hp
  refine ⟨w, b, log, hr, ha, hs, hc, h1, ?_, h3⟩
  cases hd : w.c.dists.get 1 with
  | none => rw [hd] at h2; cases h2
  | some d =>
    rw [hd] at h2
    simp only [Option.map_some, Option.some.injEq, decide_eq_true_eq] at h2
    exact ⟨d, rfl, h2⟩

/-- Two distributions that are not continuous. -/
def edgeCalls : List (Block × Call) :=
  [(⟨10, 0⟩, .exec 9 [(0, 20)] (.create (.native 0) (.linear 10 (.height 10) false) 50 60 none none)),
   (⟨31, 0⟩, .exec 9 [(0, 10)] (.fund (some 1))),
   (⟨31, 0⟩, .exec 9 [(0, 10)] (.create (.native 0) (.linear 10 (.height 10) false) 50 60 none none)),
   (⟨31, 0⟩, .exec 9 [] (.update 2 (some (.linear 10 (.height (2 ^ 64 - 20)) true)) none none none none))]

/-- A distribution that ended and is not continuous starts anew when it is funded; a change to a rate that would run
beyond the last height ends at the last height. -/
theorem C99_example_edge : ∃ w b log, sys.Run exWorld ⟨10, 0⟩ log w b ∧
    (∃ d, w.c.dists.get 1 = some d ∧ d.epoch.started = .atHeight 31 ∧ d.epoch.ends = .atHeight 41 ∧ d.funded = 10) ∧
    (∃ d, w.c.dists.get 2 = some d ∧ d.epoch.started = .atHeight 31 ∧ d.epoch.ends = .atHeight (U64 - 1)) := by
  obtain ⟨w, b, log, hr, hp⟩ := Sys.check_run (M := sys) (s := exWorld) (b := ⟨10, 0⟩) (cs := edgeCalls)
    (p := fun w _ _ => decide (((w.c.dists.get 1).map (fun d => decide (d.epoch.started = .atHeight 31 ∧
        d.epoch.ends = .atHeight 41 ∧ d.funded = 10))) = some true ∧
      ((w.c.dists.get 2).map (fun d => decide (d.epoch.started = .atHeight 31 ∧
        d.epoch.ends = .atHeight (U64 - 1)))) = some true)) (by decide +kernel)
  simp only [decide_eq_true_eq] at hp
  refine ⟨w, b, log, hr, ?_, ?_⟩
  · have h := hp.1
    cases hd : w.c.dists.get 1 with
    | none => rw [hd] at h; cases h
    | some d =>
      rw [hd] at h
      simp only [Option.map_some, Option.some.injEq, decide_eq_true_eq] at h
      exact ⟨d, rfl, h⟩
  · have h := hp.2
    cases hd : w.c.dists.get 2 with
    | none => rw [hd] at h; cases h
    | some d =>
      rw [hd] at h
      simp only [Option.map_some, Option.some.injEq, decide_eq_true_eq] at h
      exact ⟨d, rfl, h⟩

/-- One token every 2^60 blocks. -/
def slowRate : Rate := .linear 1 (.height (2 ^ 60)) false

/-- A distribution of one token every 2^60 blocks takes 15 tokens but not 16, which would last too long. -/
theorem C99_example_limit : ∃ w b log, sys.Run exWorld ⟨10, 0⟩ log w b ∧
    (∃ d, w.c.dists.get 1 = some d ∧ d.epoch.rate = slowRate ∧ d.funded = 0) ∧
    (∃ r, sys.step w ⟨11, 0⟩ (.exec 9 [(0, 15)] (.fund (some 1))) = .ok r) ∧
    ¬ ∃ r, sys.step w ⟨11, 0⟩ (.exec 9 [(0, 16)] (.fund (some 1))) = .ok r := by
  obtain ⟨w, b, log, hr, hp⟩ := Sys.check_run (M := sys) (s := exWorld) (b := ⟨10, 0⟩)
    (cs := [(⟨10, 0⟩, .exec 9 [] (.create (.native 0) slowRate 50 60 none none))])
    (p := fun w _ _ => decide (((w.c.dists.get 1).map (fun d => decide (d.epoch.rate = slowRate ∧
        d.funded = 0))) = some true) && (sys.step w ⟨11, 0⟩ (.exec 9 [(0, 15)] (.fund (some 1)))).toBool &&
      !(sys.step w ⟨11, 0⟩ (.exec 9 [(0, 16)] (.fund (some 1)))).toBool) (by decide +kernel)
  simp only [Bool.and_eq_true, decide_eq_true_eq, Bool.not_eq_true'] at hp
  obtain ⟨⟨h, h1⟩, h2⟩ := hp
  refine ⟨w, b, log, hr, ?_, ?_, ?_⟩
  · cases hd : w.c.dists.get 1 with
    | none => rw [hd] at h; cases h
    | some d =>
      rw [hd] at h
      simp only [Option.map_some, Option.some.injEq, decide_eq_true_eq] at h
      exact ⟨d, rfl, h⟩
  · cases hs : sys.step w ⟨11, 0⟩ (.exec 9 [(0, 15)] (.fund (some 1))) with
    | ok r => exact ⟨r, rfl⟩
    | error e => rw [hs] at h1; cases h1
  · rintro ⟨r, hs⟩
    rw [hs] at h2
    cases h2

end Verif.DaoRewards
