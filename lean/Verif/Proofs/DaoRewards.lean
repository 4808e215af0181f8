import Verif.Spec.DaoRewards
import Verif.Proofs.ExternalRewards
import Mathlib.Tactic.ByContra
/-!
# Invariants of dao-rewards-distributor
-/

namespace Verif.DaoRewards
open ExternalRewards (SCALE SCALE_pos mul256 add256 subN to128)
open Spec.DaoRewards

/-! ### Times in the unit of a duration -/

/-- A point in time in the unit of a duration. -/
def pt : Duration → Nat → Expiration
  | .height _, n => .atHeight n
  | .time _, n => .atTime n

/-- Whole blocks or seconds. -/
def cnt : Duration → Nat → Nat
  | .height _, n => n
  | .time _, n => n / NANOS

/-- The length of a duration. -/
def len : Duration → Nat
  | .height n => n
  | .time n => n

/-- A duration of the same unit. -/
def withLen : Duration → Nat → Duration
  | .height _, n => .height n
  | .time _, n => .time n

/-- The size of the unit. -/
def unit : Duration → Nat
  | .height _ => 1
  | .time _ => NANOS

/-- The current block. -/
def nowRaw (b : Block) : Duration → Nat
  | .height _ => b.height
  | .time _ => b.time

theorem cnt_mono (dur : Duration) {x y : Nat} (h : x ≤ y) : cnt dur x ≤ cnt dur y := by
  cases dur with
  | height => exact h
  | time => exact Nat.div_le_div_right h

theorem cnt_add (dur : Duration) (x n : Nat) : cnt dur (x + n * unit dur) = cnt dur x + n := by
  cases dur with
  | height => simp [cnt, unit]
  | time => exact Nat.add_mul_div_right _ _ (show 0 < NANOS by decide)

theorem since_mk (dur : Duration) (x u : Nat) :
    since (pt dur x) (pt dur u) = .ok (withLen dur (cnt dur x - cnt dur u)) := by
  cases dur with
  | height =>
    simp only [pt, since, withLen, cnt, Except.ok.injEq, Duration.height.injEq]
    split <;> omega
  | time =>
    simp only [pt, since, withLen, cnt, Except.ok.injEq, Duration.time.injEq]
    split
    · rfl
    · rename_i h
      have := Nat.div_le_div_right (c := NANOS) (Nat.le_of_not_lt h)
      omega

theorem durDiv_with (dur : Duration) (n : Nat) (h : 0 < len dur) : durDiv (withLen dur n) dur = .ok (n / len dur) := by
  cases dur with
  | height m => simp only [len] at h; simp only [withLen, durDiv, len]; rw [if_neg (by omega)]
  | time m => simp only [len] at h; simp only [withLen, durDiv, len]; rw [if_neg (by omega)]

theorem isZero_with (dur : Duration) (n : Nat) : isZero (withLen dur n) = decide (n = 0) := by
  cases dur with
  | height m => simp only [withLen, isZero, beq_eq_decide]
  | time m => simp only [withLen, isZero, beq_eq_decide]

theorem capAt_mk (dur : Duration) (x : Nat) (b : Block) (o : Expiration) :
    capAt (pt dur x) b o = pt dur (min (nowRaw b dur) x) := by
  cases dur <;> rfl

theorem mk_ne_never (dur : Duration) (x : Nat) : pt dur x ≠ .never := by cases dur <;> simp [pt]

theorem isExpired_mk (dur : Duration) (x : Nat) (b : Block) : (pt dur x).isExpired b = decide (x ≤ nowRaw b dur) := by
  cases dur <;> rfl

theorem nowAs_mk (dur : Duration) (b : Block) : nowAs b dur = pt dur (nowRaw b dur) := by cases dur <;> rfl

theorem endNow_mk (dur : Duration) (x : Nat) (b : Block) : endNow b (pt dur x) = pt dur (nowRaw b dur) := by
  cases dur <;> rfl

theorem nowRaw_mono {b b' : Block} (h : b.le b') (dur : Duration) : nowRaw b dur ≤ nowRaw b' dur := by
  cases dur
  · exact h.1
  · exact h.2

/-- How long funds last, in blocks or seconds. -/
def per (n funded amount : Nat) : Nat := n * (funded * DEC_ONE / amount) / DEC_ONE

theorem stretch_ok {n f a x : Nat} (h : stretch n f a = .ok x) : x = per n f a ∧ a ≠ 0 := by
  unfold stretch at h
  obtain ⟨_, h1, h⟩ := (bind_ok _ _ _).mp h
  obtain ⟨_, _, h⟩ := (bind_ok _ _ _).mp h
  obtain ⟨_, _, h⟩ := (bind_ok _ _ _).mp h
  simp only [require_ok, decide_eq_true_eq] at h1
  simp only [Except.ok.injEq] at h
  exact ⟨h.symm, h1⟩

theorem fundedPeriod_ok {f a : Nat} {dur p : Duration} (h : fundedPeriod f a dur = .ok p) :
    p = withLen dur (per (len dur) f a) ∧ a ≠ 0 := by
  cases dur with
  | height n =>
    obtain ⟨x, hx, h⟩ := (bind_ok _ _ _).mp h
    obtain ⟨rfl, ha⟩ := stretch_ok hx
    simp only [Except.ok.injEq] at h
    exact ⟨h.symm, ha⟩
  | time n =>
    obtain ⟨x, hx, h⟩ := (bind_ok _ _ _).mp h
    obtain ⟨rfl, ha⟩ := stretch_ok hx
    simp only [Except.ok.injEq] at h
    exact ⟨h.symm, ha⟩

theorem add_mk {dur : Duration} {s n : Nat} {e : Expiration} (h : (pt dur s).add (withLen dur n) = .ok e) :
    e = pt dur (s + n * unit dur) := by
  cases dur <;> simp only [pt, withLen, Expiration.add, Except.ok.injEq, unit] at h ⊢ <;> rw [← h]
  rw [Nat.mul_one]

theorem newEnd_mk (dur : Duration) (n : Nat) (b : Block) (hb : b.height < U64) :
    ∃ y, newEnd b (withLen dur n) = pt dur y ∧ nowRaw b dur ≤ y ∧ y ≤ nowRaw b dur + n * unit dur := by
  cases dur with
  | height m =>
    simp only [withLen, newEnd, pt, nowRaw, unit]
    split
    · exact ⟨_, rfl, by omega, by omega⟩
    · exact ⟨_, rfl, by omega, by omega⟩
  | time m => exact ⟨_, rfl, Nat.le_add_right _ _, Nat.le_refl _⟩

theorem per_mono (n : Nat) {f f' : Nat} (a : Nat) (h : f ≤ f') : per n f a ≤ per n f' a :=
  Nat.div_le_div_right (Nat.mul_le_mul_left _ (Nat.div_le_div_right (Nat.mul_le_mul_right _ h)))

theorem per_ge {n f a k : Nat} (ha : 0 < a) (h : k * a ≤ f) : k * n ≤ per n f a := by
  unfold per
  have h1 : k * DEC_ONE ≤ f * DEC_ONE / a := by
    rw [Nat.le_div_iff_mul_le ha]
    calc k * DEC_ONE * a = (k * a) * DEC_ONE := by rw [Nat.mul_right_comm]
      _ ≤ f * DEC_ONE := Nat.mul_le_mul_right _ h
  rw [Nat.le_div_iff_mul_le DEC_ONE_pos]
  calc k * n * DEC_ONE = n * (k * DEC_ONE) := by rw [Nat.mul_comm k n, Nat.mul_assoc]
    _ ≤ _ := Nat.mul_le_mul_left _ h1

theorem per_le {n f a : Nat} (hn : 0 < n) : per n f a / n * a ≤ f := by
  unfold per
  generalize hr : f * DEC_ONE / a = r
  have h1 : r * a ≤ f * DEC_ONE := by rw [← hr]; exact Nat.div_mul_le_self _ _
  have h2 : n * r / DEC_ONE / n ≤ r / DEC_ONE := by
    rw [Nat.div_div_eq_div_mul, Nat.mul_comm DEC_ONE n, Nat.mul_div_mul_left _ _ hn]
  have h3 : r / DEC_ONE * a * DEC_ONE ≤ f * DEC_ONE := by
    calc r / DEC_ONE * a * DEC_ONE = (r / DEC_ONE * DEC_ONE) * a := by rw [Nat.mul_right_comm]
      _ ≤ r * a := Nat.mul_le_mul_right _ (Nat.div_mul_le_self _ _)
      _ ≤ _ := h1
  exact Nat.le_trans (Nat.mul_le_mul_right _ h2) (Nat.le_of_mul_le_mul_right h3 DEC_ONE_pos)

/-! ### The reward per unit of power -/

theorem mul256_ok {a b c : Nat} (h : mul256 a b = .ok c) : c = a * b := by
  unfold mul256 at h; split at h <;> simp at h; exact h.symm
theorem add256_ok {a b c : Nat} (h : add256 a b = .ok c) : c = a + b := by
  unfold add256 at h; split at h <;> simp at h; exact h.symm
theorem subN_ok {a b c : Nat} (h : subN a b = .ok c) : b ≤ a ∧ c = a - b := by
  unfold subN at h; split at h <;> simp at h; exact ⟨by assumption, h.symm⟩
theorem to128_ok {a c : Nat} (h : to128 a = .ok c) : c = a ∧ a < U128 := by
  unfold to128 at h; split at h <;> simp at h; exact ⟨h.symm, by assumption⟩

theorem grow_ok {curr amount n total r : Nat} {dur : Duration} (hl : 0 < len dur)
    (h : grow curr amount dur (withLen dur n) total = .ok r) :
    curr ≤ r ∧ (r - curr) * total ≤ amount * (n / len dur) * SCALE ∧ (n / len dur = 0 → r = curr) ∧
      (total ≠ 0 → r = curr + amount * (n / len dur) * SCALE / total) := by
  unfold grow at h
  rw [isZero_with] at h
  split at h
  · rename_i h0
    simp only [decide_eq_true_eq] at h0
    simp only [Except.ok.injEq] at h
    subst h; subst h0
    simp
  · split at h
    · rename_i h0
      simp only [Except.ok.injEq] at h
      subst h; subst h0
      simp
    · rename_i h0
      rw [durDiv_with _ _ hl, ok_bind] at h
      obtain ⟨x, hx, h⟩ := (bind_ok _ _ _).mp h
      have hx := mul256_ok hx
      have h := add256_ok h
      subst hx; subst h
      refine ⟨Nat.le_add_right _ _, ?_, ?_, fun _ => rfl⟩
      · rw [Nat.add_sub_cancel_left]; exact Nat.div_mul_le_self _ _
      · intro hz; rw [hz]; simp

/-- Bringing a started linear epoch up to date. -/
theorem lin_sync {e : Epoch} {b : Block} {total r amount k funded s x u : Nat} {dur : Duration} {c : Bool}
    (hrate : e.rate = .linear amount dur c) (hx : e.ends = pt dur x) (hu : e.updated = pt dur u) (hl : 0 < len dur)
    (hsu : s ≤ u) (hun : u ≤ nowRaw b dur) (hk : k * len dur ≤ cnt dur u - cnt dur s)
    (hkx : k * len dur ≤ cnt dur x - cnt dur s) (hf : (cnt dur x - cnt dur s) / len dur * amount ≤ funded)
    (he : k = 0 → e.earned = 0) (h : activeEarned e b total = .ok r) :
    ∃ p, e.earned ≤ r ∧ (r - e.earned) * total ≤ amount * p * SCALE ∧
      (k + p) * len dur ≤ cnt dur (min (nowRaw b dur) x) - cnt dur s ∧ (k + p) * amount ≤ funded ∧
      (k + p = 0 → r = 0) ∧ (min (nowRaw b dur) x ≤ u → r = e.earned) := by
  unfold activeEarned at h
  rw [hrate] at h
  have hlat : latest e b = pt dur (min (nowRaw b dur) x) := by unfold latest; rw [hx, capAt_mk]
  simp only [hlat, if_neg (mk_ne_never _ _), hu, since_mk, ok_bind] at h
  obtain ⟨g1, g2, g3, _⟩ := grow_ok hl h
  generalize hm : min (nowRaw b dur) x = m at *
  have hmx : cnt dur m ≤ cnt dur x := cnt_mono dur (by omega)
  have hcu : cnt dur u ≤ cnt dur (nowRaw b dur) := cnt_mono dur hun
  have hsu' : cnt dur s ≤ cnt dur u := cnt_mono dur hsu
  have hp := Nat.div_mul_le_self (cnt dur m - cnt dur u) (len dur)
  generalize hpp : (cnt dur m - cnt dur u) / len dur = p at *
  have key : (k + p) * len dur ≤ cnt dur m - cnt dur s := by
    rw [Nat.add_mul]
    by_cases hmu : cnt dur m ≤ cnt dur u
    · have : p = 0 := by rw [← hpp, Nat.sub_eq_zero_of_le hmu, Nat.zero_div]
      subst this
      have : cnt dur m = cnt dur (nowRaw b dur) ∨ cnt dur m = cnt dur x := by
        rcases Nat.le_total (nowRaw b dur) x with h | h
        · left; congr 1; omega
        · right; congr 1; omega
      rcases this with h | h <;> omega
    · omega
  refine ⟨p, g1, g2, key, ?_, ?_, ?_⟩
  · refine Nat.le_trans (Nat.mul_le_mul_right _ ?_) hf
    rw [Nat.le_div_iff_mul_le hl]
    omega
  · intro hz
    have h1 : k = 0 := by omega
    have h2 : p = 0 := by omega
    rw [g3 h2, he h1]
  · intro hmu
    refine g3 ?_
    have := cnt_mono dur hmu
    rw [← hpp, Nat.sub_eq_zero_of_le this, Nat.zero_div]

/-! ### What is known of an epoch -/

/-- A linear epoch that was never funded. -/
def Unstarted (e : Epoch) (funded k : Nat) : Prop :=
  e.started = .never ∧ e.ends = .never ∧ e.updated = .never ∧ funded = 0 ∧ k = 0

/-- A linear epoch that was started: `k` periods have been handed out. -/
def Active (e : Epoch) (amount : Nat) (dur : Duration) (funded k : Nat) (b : Block) (fresh : Prop) : Prop :=
  ∃ s x u, e.started = pt dur s ∧ e.ends = pt dur x ∧ e.updated = pt dur u ∧ s ≤ u ∧ u ≤ x ∧ u ≤ nowRaw b dur ∧
    k * len dur ≤ cnt dur u - cnt dur s ∧ (cnt dur x - cnt dur s) / len dur * amount ≤ funded ∧
    (x ≤ nowRaw b dur ∨ x ≤ s + per (len dur) funded amount * unit dur) ∧
    (fresh ∨ u = min (nowRaw b dur) x)

/-- What is known of the epoch of a distribution. -/
def Shape (e : Epoch) (funded k : Nat) (b : Block) (fresh : Prop) : Prop :=
  match e.rate with
  | .paused => e.started = .never ∧ e.ends = .never ∧ e.earned = 0
  | .immediate => e.started = .never ∧ e.ends = .never
  | .linear amount dur _ =>
    0 < amount ∧ 0 < len dur ∧ (k = 0 → e.earned = 0) ∧
      (Unstarted e funded k ∨ Active e amount dur funded k b fresh)

/-- The funds that are not handed out yet. -/
def rest (e : Epoch) (funded k : Nat) : Nat :=
  match e.rate with
  | .paused => funded
  | .immediate => 0
  | .linear amount _ _ => funded - k * amount

/-- Periods handed out are funded. -/
theorem Active.le {e : Epoch} {amount : Nat} {dur : Duration} {funded k : Nat} {b : Block} {fresh : Prop}
    (h : Active e amount dur funded k b fresh) (hl : 0 < len dur) : k * amount ≤ funded := by
  obtain ⟨s, x, u, _, _, _, h1, h2, _, h4, h5, _, _⟩ := h
  refine Nat.le_trans (Nat.mul_le_mul_right _ ?_) h5
  rw [Nat.le_div_iff_mul_le hl]
  have := cnt_mono dur h2
  omega

theorem Shape.mono {e : Epoch} {funded k : Nat} {b b' : Block} {fresh fresh' : Prop}
    (h : Shape e funded k b fresh) (hb : b.le b') (hf : fresh → fresh') (hs : fresh' ∨ b = b') :
    Shape e funded k b' fresh' := by
  unfold Shape at *
  split at h
  · exact h
  · exact h
  · rename_i amount dur c _
    obtain ⟨h1, h2, h3, h4⟩ := h
    refine ⟨h1, h2, h3, ?_⟩
    rcases h4 with h4 | ⟨s, x, u, a1, a2, a3, a4, a5, a6, a7, a8, a9, a10⟩
    · exact Or.inl h4
    · have hn := nowRaw_mono hb dur
      refine Or.inr ⟨s, x, u, a1, a2, a3, a4, a5, by omega, a7, a8, by omega, ?_⟩
      rcases hs with hs | hs
      · exact Or.inl hs
      · subst hs; rcases a10 with a10 | a10
        · exact Or.inl (hf a10)
        · exact Or.inr a10

/-- Bringing an epoch up to date. -/
theorem Shape.sync {e : Epoch} {funded k : Nat} {b : Block} {fresh : Prop} {total r : Nat}
    (h : Shape e funded k b fresh) (hr : activeEarned e b total = .ok r) :
    ∃ k', Shape (bump { e with earned := r } b) funded k' b False ∧ e.earned ≤ r ∧
      (r - e.earned) * total + SCALE * rest e funded k' ≤ SCALE * rest e funded k ∧ (¬ fresh → r = e.earned) := by
  rcases hrate : e.rate with _ | _ | ⟨amount, dur, c⟩
  · unfold Shape at h
    simp only [hrate] at h
    unfold activeEarned at hr
    simp only [hrate, Except.ok.injEq] at hr
    subst hr
    refine ⟨k, ?_, by omega, by rw [h.2.2]; simp, fun _ => h.2.2.symm⟩
    unfold Shape
    simp only [bump]
    exact ⟨h.1, h.2.1, trivial⟩
  · unfold Shape at h
    simp only [hrate] at h
    unfold activeEarned at hr
    simp only [hrate, Except.ok.injEq] at hr
    subst hr
    refine ⟨k, ?_, Nat.le_refl _, by simp, fun _ => rfl⟩
    unfold Shape
    simp only [bump]
    exact h
  · unfold Shape at h
    simp only [hrate] at h
    obtain ⟨h1, h2, h3, h4⟩ := h
    rcases h4 with h4 | h4
    · obtain ⟨u1, u2, u3, u4, u5⟩ := h4
      have hl : latest e b = .never := by unfold latest; rw [u2]; exact u3
      unfold activeEarned at hr
      simp only [hrate, hl, if_true, Except.ok.injEq] at hr
      subst hr
      refine ⟨k, ?_, Nat.le_refl _, by simp, fun _ => rfl⟩
      unfold Shape
      simp only [bump]
      refine ⟨h1, h2, h3, Or.inl ⟨u1, u2, ?_, u4, u5⟩⟩
      show capAt e.ends b .never = .never
      rw [u2]; rfl
    · have hle := h4.le h2
      obtain ⟨s, x, u, a1, a2, a3, a4, a5, a6, a7, a8, a9, a10⟩ := h4
      have hcx := cnt_mono dur a5
      obtain ⟨p, p1, p2, p3, p4, p5, p6⟩ := lin_sync hrate a2 a3 h2 a4 a6 a7 (by omega) a8 h3 hr
      refine ⟨k + p, ?_, p1, ?_, ?_⟩
      · unfold Shape
        simp only [bump]
        refine ⟨h1, h2, p5, Or.inr ⟨s, x, min (nowRaw b dur) x, a1, a2, ?_, by omega, by omega, by omega, p3, a8, a9,
          Or.inr rfl⟩⟩
        show capAt e.ends b .never = _
        rw [a2, capAt_mk]
      · unfold rest
        simp only [hrate]
        have : SCALE * (funded - k * amount) = amount * p * SCALE + SCALE * (funded - (k + p) * amount) := by
          have e1 : (k + p) * amount = k * amount + p * amount := Nat.add_mul _ _ _
          have e2 : funded - k * amount = p * amount + (funded - (k + p) * amount) := by omega
          rw [e2, Nat.mul_add, Nat.mul_comm amount p, Nat.mul_comm SCALE (p * amount)]
        omega
      · intro hf
        rcases a10 with a10 | a10
        · exact absurd a10 hf
        · exact p6 (by omega)

/-! ### What is known of a distribution -/

theorem mapsum_le {α : Type} {l : List α} {f g : α → Nat} (h : ∀ a ∈ l, f a ≤ g a) : (l.map f).sum ≤ (l.map g).sum := by
  induction l with
  | nil => exact Nat.le_refl _
  | cons a l ih =>
    have h1 := h a (List.mem_cons_self ..)
    have h2 := ih (fun x hx => h x (List.mem_cons_of_mem _ hx))
    simp only [List.map_cons, List.sum_cons]
    omega

theorem mapsum_add {α : Type} (l : List α) (f g : α → Nat) :
    (l.map (fun a => f a + g a)).sum = (l.map f).sum + (l.map g).sum := by
  induction l with
  | nil => rfl
  | cons a l ih => simp only [List.map_cons, List.sum_cons]; omega

theorem mapsum_mul {α : Type} (l : List α) (f : α → Nat) (c : Nat) : (l.map (fun a => c * f a)).sum = c * (l.map f).sum := by
  induction l with
  | nil => rfl
  | cons a l ih => simp only [List.map_cons, List.sum_cons, ih, Nat.mul_add]

theorem mapsum_total {m : AMap Addr Nat} (hm : AMap.WF m) {l : List Addr} (hl : l.Nodup) :
    (l.map (fun a => getD0 m a)).sum ≤ total m := by
  have := AMap.sum_nodup hm (fun _ n => n) l hl (fun _ => rfl)
  rw [total_eq]; exact this

/-- What a member is owed, scaled. -/
def owed (t : Nat) (acc pend : Addr → Nat) (m : AMap Addr Nat) (a : Addr) : Nat :=
  pend a * SCALE + (t - acc a) * getD0 m a

/-- What is known of a distribution: `f` was funded in all, `x` paid out. -/
structure DInv (d : Dist) (acc pend : Addr → Nat) (v : Votes) (b : Block) (f x k : Nat) : Prop where
  accLe : ∀ a, acc a ≤ d.epoch.earned + d.hist
  sum : ∀ as : List Addr, as.Nodup →
    (as.map (owed (d.epoch.earned + d.hist) acc pend v.cur)).sum + SCALE * (x + rest d.epoch d.funded k) ≤ SCALE * f
  calm : v.since < b.height ∨ ∀ a, getD0 v.cur a ≠ getD0 v.start a → acc a = d.epoch.earned + d.hist
  shape : Shape d.epoch d.funded k b (v.since < b.height)

/-- What is known of a voting contract. -/
structure VInv (v : Votes) (b : Block) : Prop where
  cur : AMap.WF v.cur
  start : AMap.WF v.start
  since : v.since ≤ b.height

theorem DInv.mono {d : Dist} {acc pend : Addr → Nat} {v : Votes} {b b' : Block} {f x k : Nat}
    (h : DInv d acc pend v b f x k) (hv : VInv v b) (hb : b.le b') (hs : b.height < b'.height ∨ b = b') :
    DInv d acc pend v b' f x k := by
  refine ⟨h.accLe, h.sum, ?_, ?_⟩
  · rcases h.calm with h1 | h1
    · exact Or.inl (Nat.lt_of_lt_of_le h1 hb.1)
    · exact Or.inr h1
  · refine h.shape.mono hb (fun h1 => Nat.lt_of_lt_of_le h1 hb.1) ?_
    rcases hs with hs | hs
    · exact Or.inl (Nat.lt_of_le_of_lt hv.since hs)
    · exact Or.inr hs

/-- The reward per unit of power grows by what is handed out. -/
theorem sum_grow {t t' x r r' f tot : Nat} {acc pend : Addr → Nat} {m : AMap Addr Nat} (hm : AMap.WF m)
    (hacc : ∀ a, acc a ≤ t) (ht : t ≤ t') (htot : t' = t ∨ tot = total m)
    (hg : (t' - t) * tot + SCALE * r' ≤ SCALE * r)
    (h : ∀ as : List Addr, as.Nodup → (as.map (owed t acc pend m)).sum + SCALE * (x + r) ≤ SCALE * f) :
    ∀ as : List Addr, as.Nodup → (as.map (owed t' acc pend m)).sum + SCALE * (x + r') ≤ SCALE * f := by
  intro as has
  have h1 := h as has
  have e1 : (as.map (owed t' acc pend m)).sum =
      (as.map (owed t acc pend m)).sum + (t' - t) * (as.map (fun a => getD0 m a)).sum := by
    rw [← mapsum_mul, ← mapsum_add]
    congr 1
    apply List.map_congr_left
    intro a _
    unfold owed
    have e : t' - acc a = (t - acc a) + (t' - t) := by have := hacc a; omega
    rw [e, Nat.add_mul]; omega
  have e2 : (t' - t) * (as.map (fun a => getD0 m a)).sum ≤ (t' - t) * tot := by
    rcases htot with h | h
    · subst h; simp
    · exact Nat.mul_le_mul_left _ (by rw [h]; exact mapsum_total hm has)
  simp only [Nat.mul_add] at h1 ⊢
  omega

/-- The total power asked for is the latest one, unless there is nothing to hand out. -/
theorem atHeight_fresh {v : Votes} {b : Block} (h : v.since < b.height) : v.atHeight b.height = v.cur := by
  unfold Votes.atHeight; rw [if_pos h]

/-- Bringing a distribution up to date. -/
theorem DInv.sync {d : Dist} {acc pend : Addr → Nat} {v : Votes} {b : Block} {f x k r : Nat}
    (h : DInv d acc pend v b f x k) (hv : VInv v b)
    (hr : activeEarned d.epoch b (total (v.atHeight b.height)) = .ok r) :
    ∃ k', DInv { d with epoch := bump { d.epoch with earned := r } b } acc pend v b f x k' ∧ d.epoch.earned ≤ r ∧
      Shape (bump { d.epoch with earned := r } b) d.funded k' b False ∧
      (Shape d.epoch d.funded k b False → r = d.epoch.earned) := by
  obtain ⟨k', s1, s2, s3, s4⟩ := h.shape.sync hr
  refine ⟨k', ⟨?_, ?_, ?_, s1.mono (Block.le_refl _) False.elim (Or.inr rfl)⟩, s2, s1, ?_⟩
  case refine_4 =>
    intro hz
    obtain ⟨_, _, _, _, s5⟩ := hz.sync hr
    exact s5 not_false
  · intro a
    have := h.accLe a
    show acc a ≤ r + d.hist
    omega
  · show ∀ as : List Addr, as.Nodup →
      (as.map (owed (r + d.hist) acc pend v.cur)).sum + SCALE * (x + rest d.epoch d.funded k') ≤ SCALE * f
    refine sum_grow hv.cur h.accLe (by omega) (tot := total (v.atHeight b.height)) ?_ ?_ h.sum
    · by_cases hf : v.since < b.height
      · right; rw [atHeight_fresh hf]
      · left; rw [s4 hf]
    · have e : r + d.hist - (d.epoch.earned + d.hist) = r - d.epoch.earned := by omega
      rw [e]; exact s3
  · by_cases hf : v.since < b.height
    · exact Or.inl hf
    · have e := s4 hf
      subst e
      rcases h.calm with h1 | h1
      · exact absurd h1 hf
      · exact Or.inr h1

/-- Set the value of one member. -/
def upd (g : Addr → Nat) (a n : Nat) : Addr → Nat := fun q => if a = q then n else g q

/-- Crediting a member with what it earned since it was last credited. -/
theorem DInv.account {d : Dist} {acc pend : Addr → Nat} {v : Votes} {b : Block} {f x k n : Nat} {a : Addr}
    (h : DInv d acc pend v b f x k)
    (hn : accrued (getD0 (v.atHeight b.height) a) (d.epoch.earned + d.hist) (acc a) = .ok n) :
    DInv d (upd acc a (d.epoch.earned + d.hist)) (upd pend a (n + pend a)) v b f x k := by
  have hacc : ∀ q, upd acc a (d.epoch.earned + d.hist) q ≤ d.epoch.earned + d.hist := by
    intro q; unfold upd; split
    · exact Nat.le_refl _
    · exact h.accLe q
  refine ⟨hacc, ?_, ?_, h.shape⟩
  · intro as has
    refine Nat.le_trans (Nat.add_le_add_right (mapsum_le ?_) _) (h.sum as has)
    intro q _
    unfold owed upd
    by_cases hq : a = q
    · subst hq
      simp only [if_true, Nat.sub_self, Nat.zero_mul, Nat.add_zero]
      unfold accrued at hn
      obtain ⟨y, hy, hn⟩ := (bind_ok _ _ _).mp hn
      obtain ⟨z, hz, hn⟩ := (bind_ok _ _ _).mp hn
      obtain ⟨_, rfl⟩ := subN_ok hy
      have hz := mul256_ok hz; subst hz
      obtain ⟨rfl, _⟩ := to128_ok hn
      rw [Nat.add_mul]
      have e : getD0 (v.atHeight b.height) a * (d.epoch.earned + d.hist - acc a) =
          (d.epoch.earned + d.hist - acc a) * getD0 v.cur a := by
        rcases h.calm with hc | hc
        · rw [atHeight_fresh hc, Nat.mul_comm]
        · by_cases hne : getD0 v.cur a = getD0 v.start a
          · unfold Votes.atHeight; split
            · rw [Nat.mul_comm]
            · rw [hne, Nat.mul_comm]
          · rw [hc a hne]; simp
      have := Nat.div_mul_le_self (getD0 (v.atHeight b.height) a * (d.epoch.earned + d.hist - acc a)) SCALE
      rw [e] at this ⊢
      omega
    · simp only [if_neg hq]; exact Nat.le_refl _
  · rcases h.calm with hc | hc
    · exact Or.inl hc
    · right
      intro q hq
      unfold upd; split
      · rfl
      · exact hc q hq

/-- A claim pays out what is pending. -/
theorem DInv.claim {d : Dist} {acc pend : Addr → Nat} {v : Votes} {b : Block} {f x k : Nat} (a : Addr)
    (h : DInv d acc pend v b f x k) : DInv d acc (upd pend a 0) v b f (x + pend a) k := by
  refine ⟨h.accLe, ?_, h.calm, h.shape⟩
  have key : ∀ as : List Addr, as.Nodup → a ∈ as →
      (as.map (owed (d.epoch.earned + d.hist) acc (upd pend a 0) v.cur)).sum + SCALE * pend a ≤
        (as.map (owed (d.epoch.earned + d.hist) acc pend v.cur)).sum := by
    intro as
    induction as with
    | nil => intro _ hm; cases hm
    | cons q l ih =>
      intro hnd hm
      have hq := (List.nodup_cons.1 hnd).1
      simp only [List.map_cons, List.sum_cons]
      by_cases hqa : a = q
      · subst hqa
        have e : (l.map (owed (d.epoch.earned + d.hist) acc (upd pend a 0) v.cur)).sum =
            (l.map (owed (d.epoch.earned + d.hist) acc pend v.cur)).sum := by
          congr 1
          apply List.map_congr_left
          intro y hy
          unfold owed upd
          rw [if_neg (by rintro rfl; exact hq hy)]
        rw [e]
        unfold owed upd
        simp only [if_true, Nat.zero_mul, Nat.mul_comm SCALE (pend a)]
        omega
      · have hm' : a ∈ l := by
          rcases List.mem_cons.1 hm with h | h
          · exact absurd h hqa
          · exact h
        have := ih (List.nodup_cons.1 hnd).2 hm'
        have e : owed (d.epoch.earned + d.hist) acc (upd pend a 0) v.cur q =
            owed (d.epoch.earned + d.hist) acc pend v.cur q := by
          unfold owed upd; rw [if_neg hqa]
        omega
  intro as has
  by_cases hm : a ∈ as
  · have h1 := key as has hm
    have h2 := h.sum as has
    simp only [Nat.mul_add] at h2 ⊢
    omega
  · have hnd : (a :: as).Nodup := List.nodup_cons.2 ⟨hm, has⟩
    have h1 := key (a :: as) hnd (List.mem_cons_self ..)
    have h2 := h.sum (a :: as) hnd
    simp only [List.map_cons, List.sum_cons] at h1 h2
    simp only [Nat.mul_add] at h2 ⊢
    omega

/-- The latest powers after a change. -/
theorem foldl_get (diffs : List (Addr × Nat)) (m : AMap Addr Nat) (a : Addr) (h : a ∉ diffs.map Prod.fst) :
    getD0 (diffs.foldl (fun m p => AMap.set m p.1 p.2) m) a = getD0 m a := by
  induction diffs generalizing m with
  | nil => rfl
  | cons p l ih =>
    simp only [List.map_cons, List.mem_cons, not_or] at h
    rw [List.foldl_cons, ih _ h.2, getD0_set, if_neg (fun hh => h.1 hh.symm)]

theorem foldl_wf (diffs : List (Addr × Nat)) {m : AMap Addr Nat} (h : AMap.WF m) :
    AMap.WF (diffs.foldl (fun m p => AMap.set m p.1 p.2) m) := by
  induction diffs generalizing m with
  | nil => exact h
  | cons p l ih => rw [List.foldl_cons]; exact ih (AMap.WF_set h _ _)

theorem VInv.change {v : Votes} {b : Block} (h : VInv v b) (diffs : List (Addr × Nat)) :
    VInv (v.change b.height diffs) b := by
  refine ⟨foldl_wf _ h.cur, ?_, Nat.le_refl _⟩
  show AMap.WF (v.atHeight b.height)
  unfold Votes.atHeight; split
  · exact h.cur
  · exact h.start

/-- A change of power in the block changes no answer of the voting contract in this block. -/
theorem change_atHeight (v : Votes) (h : Nat) (diffs : List (Addr × Nat)) :
    (v.change h diffs).atHeight h = v.atHeight h := by
  show (if h < h then _ else v.atHeight h) = _
  rw [if_neg (Nat.lt_irrefl _)]

/-- A change of power, after everybody concerned was credited in this block. -/
theorem DInv.change {d : Dist} {acc pend : Addr → Nat} {v : Votes} {b : Block} {f x k : Nat}
    (h : DInv d acc pend v b f x k) (diffs : List (Addr × Nat))
    (hacc : ∀ a ∈ diffs.map Prod.fst, acc a = d.epoch.earned + d.hist)
    (hset : Shape d.epoch d.funded k b False) :
    DInv d acc pend (v.change b.height diffs) b f x k := by
  refine ⟨h.accLe, ?_, ?_, hset.mono (Block.le_refl _) False.elim (Or.inr rfl)⟩
  · intro as has
    refine Nat.le_trans (Nat.add_le_add_right (mapsum_le ?_) _) (h.sum as has)
    intro q _
    show owed _ acc pend (diffs.foldl (fun m p => AMap.set m p.1 p.2) v.cur) q ≤ _
    unfold owed
    by_cases hq : q ∈ diffs.map Prod.fst
    · rw [hacc q hq]; simp
    · rw [foldl_get _ _ _ hq]
  · right
    intro a ha
    by_cases hq : a ∈ diffs.map Prod.fst
    · exact hacc a hq
    · change getD0 (diffs.foldl (fun m p => AMap.set m p.1 p.2) v.cur) a ≠ getD0 (v.atHeight b.height) a at ha
      rw [foldl_get _ _ _ hq] at ha
      unfold Votes.atHeight at ha
      split at ha
      · exact absurd rfl ha
      · rcases h.calm with hc | hc
        · exact absurd hc (by assumption)
        · exact hc a ha

/-- The fields of a distribution that funding and withdrawing leave alone. -/
def Same (d d' : Dist) : Prop := d'.vp = d.vp ∧ d'.token = d.token ∧ d'.hookCaller = d.hookCaller

theorem addAtOnce_ok {e t n r : Nat} (h : addAtOnce e t n = .ok r) : r = e + n * SCALE / t ∧ t ≠ 0 := by
  unfold addAtOnce at h
  obtain ⟨_, h1, h⟩ := (bind_ok _ _ _).mp h
  obtain ⟨y, h2, h⟩ := (bind_ok _ _ _).mp h
  simp only [require_ok, decide_eq_true_eq] at h1
  have h2 := mul256_ok h2; subst h2
  exact ⟨add256_ok h, h1⟩

theorem sum_add {t x r f n : Nat} {acc pend : Addr → Nat} {m : AMap Addr Nat}
    (h : ∀ as : List Addr, as.Nodup → (as.map (owed t acc pend m)).sum + SCALE * (x + r) ≤ SCALE * f) :
    ∀ as : List Addr, as.Nodup → (as.map (owed t acc pend m)).sum + SCALE * (x + (r + n)) ≤ SCALE * (f + n) := by
  intro as has
  have := h as has
  simp only [Nat.mul_add] at this ⊢
  omega

theorem sum_drop {t x r r' f : Nat} {acc pend : Addr → Nat} {m : AMap Addr Nat} (hr : r' ≤ r)
    (h : ∀ as : List Addr, as.Nodup → (as.map (owed t acc pend m)).sum + SCALE * (x + r) ≤ SCALE * f) :
    ∀ as : List Addr, as.Nodup → (as.map (owed t acc pend m)).sum + SCALE * (x + r') ≤ SCALE * f := by
  intro as has
  have h1 := h as has
  have h2 := Nat.mul_le_mul_left SCALE (Nat.add_le_add_left hr x)
  omega

/-- A linear distribution that starts now, with some funds. -/
theorem Active.new {e : Epoch} {amount : Nat} {dur : Duration} {n y : Nat} {b : Block} (hl : 0 < len dur)
    (h1 : e.started = pt dur (nowRaw b dur)) (h2 : e.updated = pt dur (nowRaw b dur)) (h3 : e.ends = pt dur y)
    (hy : nowRaw b dur ≤ y) (hy' : y ≤ nowRaw b dur + per (len dur) n amount * unit dur) (fresh : Prop) :
    Active e amount dur n 0 b fresh := by
  refine ⟨nowRaw b dur, y, nowRaw b dur, h1, h3, h2, Nat.le_refl _, hy, Nat.le_refl _, by simp, ?_, Or.inr hy',
    Or.inr (by omega)⟩
  have e1 := cnt_mono dur hy'
  rw [cnt_add] at e1
  refine Nat.le_trans (Nat.mul_le_mul_right _ (Nat.div_le_div_right ?_)) (per_le hl)
  omega

theorem DInv.fundLinear {d d' : Dist} {acc pend : Addr → Nat} {v : Votes} {b : Block} {f x k n amount : Nat}
    {dur : Duration} {c : Bool} (hrate : d.epoch.rate = .linear amount dur c)
    (h : DInv d acc pend v b f x k) (hv : VInv v b)
    (hd : fundLinear d b (total (v.atHeight b.height)) n amount dur c = .ok d')
    (ho : c = true → d.epoch.ends.isExpired b = true → v.since < b.height) :
    ∃ k', DInv d' acc pend v b (f + n) x k' ∧ Same d d' := by
  have hs := h.shape
  unfold Shape at hs
  simp only [hrate] at hs
  obtain ⟨ha, hl, hk, hs⟩ := hs
  unfold DaoRewards.fundLinear at hd
  obtain ⟨d1, hd1, hd2⟩ := (bind_ok _ _ _).mp hd
  obtain ⟨p, hp, hd3⟩ := (bind_ok _ _ _).mp hd2
  obtain ⟨ends, he, hd4⟩ := (bind_ok _ _ _).mp hd3
  clear hd hd2 hd3
  obtain ⟨hp, _⟩ := fundedPeriod_ok hp
  rw [hp] at he
  have hle : k * amount ≤ d.funded := by
    rcases hs with hs | hs
    · obtain ⟨_, _, _, _, u5⟩ := hs; rw [u5]; simp
    · exact hs.le hl
  -- the distribution starts anew, with `hist'` as its history
  have hnew : ∀ hist' : Nat, d1 = restart d b dur n hist' → (∀ a, acc a ≤ hist') →
      (∀ as : List Addr, as.Nodup → (as.map (owed hist' acc pend v.cur)).sum + SCALE * (x + 0) ≤ SCALE * f) →
      (v.since < b.height ∨ ∀ a, getD0 v.cur a ≠ getD0 v.start a → acc a = hist') →
      d' = { d1 with epoch := { d1.epoch with ends := ends } } →
      ∃ k', DInv d' acc pend v b (f + n) x k' ∧ Same d d' := by
    intro hist' e1 g1 g2 g3 e2
    subst e1
    change (nowAs b dur).add _ = _ at he
    rw [nowAs_mk] at he
    have he := add_mk he
    subst he
    subst e2
    refine ⟨0, ⟨?_, ?_, ?_, ?_⟩, rfl, rfl, rfl⟩
    · intro a
      show acc a ≤ 0 + hist'
      rw [Nat.zero_add]; exact g1 a
    · show ∀ as : List Addr, as.Nodup → (as.map (owed (0 + hist') acc pend v.cur)).sum +
        SCALE * (x + rest d.epoch n 0) ≤ SCALE * (f + n)
      have e3 : rest d.epoch n 0 = 0 + n := by unfold rest; simp [hrate]
      rw [e3, Nat.zero_add]
      exact sum_add g2
    · rcases g3 with hc | hc
      · exact Or.inl hc
      · right
        intro a hne
        show acc a = 0 + hist'
        rw [Nat.zero_add]; exact hc a hne
    · unfold Shape
      simp only [restart, hrate]
      refine ⟨ha, hl, fun _ => trivial, Or.inr ?_⟩
      exact Active.new hl (nowAs_mk _ _) (nowAs_mk _ _) rfl (Nat.le_add_right _ _) (Nat.le_refl _) _
  unfold fundLinearStart at hd1
  split at hd1
  · rename_i hz
    simp only [Except.ok.injEq] at hd1
    simp only [hz, ne_eq, not_true_eq_false, decide_false, Bool.and_false, Bool.false_and, if_neg,
      Except.ok.injEq, Bool.false_eq_true, not_false_eq_true] at hd4
    have he0 : d.epoch.earned = 0 := by
      refine hk ?_
      rw [hz] at hle
      have := Nat.eq_zero_of_le_zero hle
      rcases Nat.mul_eq_zero.1 this with h | h
      · exact h
      · omega
    have g1 := h.accLe
    have g2 := sum_drop (Nat.zero_le _) h.sum
    have g3 := h.calm
    rw [he0, Nat.zero_add] at g1 g2 g3
    exact hnew d.hist hd1.symm g1 g2 g3 hd4.symm
  · rename_i hz
    have hact : Active d.epoch amount dur d.funded k b (v.since < b.height) := by
      rcases hs with hs | hs
      · exact absurd hs.2.2.2.1 hz
      · exact hs
    split at hd1
    · rename_i hc
      obtain ⟨r, hr, hd5⟩ := (bind_ok _ _ _).mp hd1
      obtain ⟨hist, hh, hd6⟩ := (bind_ok _ _ _).mp hd5
      have hh := add256_ok hh
      simp only [Except.ok.injEq] at hd6
      simp only [Bool.and_eq_true, Bool.not_eq_true'] at hc
      simp only [hc.1, Bool.false_and, if_neg, Except.ok.injEq, Bool.false_eq_true, not_false_eq_true] at hd4
      obtain ⟨k2, i1, i2, _, _⟩ := h.sync hv hr
      have g1 := i1.accLe
      have g2 := sum_drop (Nat.zero_le _) i1.sum
      have g3 := i1.calm
      simp only [bump] at g1 g2 g3
      rw [Nat.add_comm r d.hist, ← hh] at g1 g2 g3
      exact hnew hist hd6.symm g1 g2 g3 hd4.symm
    · rename_i hc
      obtain ⟨fn, hfn, hd5⟩ := (bind_ok _ _ _).mp hd1
      obtain ⟨_, rfl⟩ := (add128_ok _ _ _).mp hfn
      simp only [Except.ok.injEq] at hd5
      subst hd5
      obtain ⟨s, y, u, a1, a2, a3, a4, a5, a6, a7, a8, a9, a10⟩ := hact
      simp only [a1] at he
      have he := add_mk he
      subst he
      have hcnt : cnt dur (s + per (len dur) (d.funded + n) amount * unit dur) - cnt dur s =
          per (len dur) (d.funded + n) amount := by rw [cnt_add]; omega
      have hsum := sum_add (n := n) h.sum
      have hrest : rest d.epoch d.funded k + n = rest d.epoch (d.funded + n) k := by
        unfold rest; simp only [hrate]; omega
      rw [hrest] at hsum
      have hper : (cnt dur (s + per (len dur) (d.funded + n) amount * unit dur) - cnt dur s) / len dur * amount ≤
          d.funded + n := by rw [hcnt]; exact per_le hl
      rw [a2, isExpired_mk] at hd4 hc ho
      split at hd4
      · rename_i hx
        simp only [Bool.and_eq_true, decide_eq_true_eq] at hx
        obtain ⟨⟨hx1, _⟩, hx3⟩ := hx
        have hfresh := ho hx1 (decide_eq_true hx3)
        obtain ⟨r, hr, hd6⟩ := (bind_ok _ _ _).mp hd4
        simp only [Except.ok.injEq] at hd6
        have hge : k * len dur ≤ per (len dur) (d.funded + n) amount := per_ge ha (by omega)
        obtain ⟨p', p1, p2, p3, p4, p5, _⟩ := lin_sync
          (e := { d.epoch with ends := pt dur (s + per (len dur) (d.funded + n) amount * unit dur) })
          (funded := d.funded + n) (k := k) (s := s) hrate rfl a3 hl a4 a6 a7 (by rw [hcnt]; exact hge) hper hk hr
        subst hd6
        simp only at p1 p2
        refine ⟨k + p', ⟨?_, ?_, Or.inl hfresh, ?_⟩, rfl, rfl, rfl⟩
        · intro a
          have := h.accLe a
          show acc a ≤ r + d.hist
          omega
        · show ∀ as : List Addr, as.Nodup → (as.map (owed (r + d.hist) acc pend v.cur)).sum +
            SCALE * (x + rest d.epoch (d.funded + n) (k + p')) ≤ SCALE * (f + n)
          refine sum_grow hv.cur h.accLe (by omega) (tot := total (v.atHeight b.height)) ?_ ?_ hsum
          · right; rw [atHeight_fresh hfresh]
          · have e : r + d.hist - (d.epoch.earned + d.hist) = r - d.epoch.earned := by omega
            rw [e]
            unfold rest
            simp only [hrate]
            have e1 : (k + p') * amount = k * amount + p' * amount := Nat.add_mul _ _ _
            have e2 : d.funded + n - k * amount = p' * amount + (d.funded + n - (k + p') * amount) := by omega
            rw [e2, Nat.mul_add, Nat.mul_comm SCALE (p' * amount), Nat.mul_comm p' amount]
            exact Nat.add_le_add_right p2 _
        · unfold Shape
          simp only [bump, hrate]
          refine ⟨ha, hl, p5, Or.inr ⟨s, _, min (nowRaw b dur) (s + per (len dur) (d.funded + n) amount * unit dur),
            a1, rfl, ?_, by omega, by omega, by omega, p3, hper, Or.inr (Nat.le_refl _), Or.inr rfl⟩⟩
          exact capAt_mk _ _ _ _
      · rename_i hx
        simp only [Except.ok.injEq] at hd4
        subst hd4
        have hne : nowRaw b dur < y := by
          by_contra hcon
          have : decide (y ≤ nowRaw b dur) = true := decide_eq_true (by omega)
          rw [this] at hc hx
          cases c
          · simp at hc
          · simp [hz] at hx
        have hmono : per (len dur) d.funded amount * unit dur ≤ per (len dur) (d.funded + n) amount * unit dur :=
          Nat.mul_le_mul_right _ (per_mono _ _ (Nat.le_add_right _ _))
        refine ⟨k, ⟨h.accLe, hsum, h.calm, ?_⟩, rfl, rfl, rfl⟩
        unfold Shape
        simp only [hrate]
        refine ⟨ha, hl, hk, Or.inr ⟨s, _, u, a1, rfl, a3, a4, by omega, a6, a7, hper, Or.inr (Nat.le_refl _), ?_⟩⟩
        rcases a10 with a10 | a10
        · exact Or.inl a10
        · right; omega

/-- Funding. -/
theorem DInv.fund {d d' : Dist} {acc pend : Addr → Nat} {v : Votes} {b : Block} {f x k n : Nat}
    (h : DInv d acc pend v b f x k) (hv : VInv v b)
    (hd : fundDist d b (total (v.atHeight b.height)) n = .ok d')
    (ho : (match d.epoch.rate with
      | .immediate => True
      | .linear _ _ c => c = true ∧ d.epoch.ends.isExpired b = true
      | .paused => False) → v.since < b.height) :
    ∃ k', DInv d' acc pend v b (f + n) x k' ∧ Same d d' := by
  unfold fundDist at hd
  have hs := h.shape
  unfold Shape at hs
  obtain ⟨rt, hrate⟩ : ∃ rt, d.epoch.rate = rt := ⟨_, rfl⟩
  rcases rt with _ | _ | ⟨amount, dur, c⟩
  · simp only [hrate] at hd hs
    obtain ⟨fn, hfn, hd2⟩ := (bind_ok _ _ _).mp hd
    obtain ⟨_, rfl⟩ := (add128_ok _ _ _).mp hfn
    simp only [Except.ok.injEq] at hd2
    subst hd2
    refine ⟨k, ⟨h.accLe, ?_, h.calm, ?_⟩, rfl, rfl, rfl⟩
    · have := sum_add (n := n) h.sum
      have e : rest d.epoch d.funded k + n = rest d.epoch (d.funded + n) k := by unfold rest; simp only [hrate]
      rw [e] at this; exact this
    · unfold Shape; simp only [hrate]; exact hs
  · simp only [hrate] at hd hs ho
    have hfresh := ho trivial
    obtain ⟨fn, hfn, hd2⟩ := (bind_ok _ _ _).mp hd
    obtain ⟨r, hr, hd3⟩ := (bind_ok _ _ _).mp hd2
    obtain ⟨_, rfl⟩ := (add128_ok _ _ _).mp hfn
    obtain ⟨rfl, _⟩ := addAtOnce_ok hr
    simp only [Except.ok.injEq] at hd3
    subst hd3
    refine ⟨k, ⟨?_, ?_, Or.inl hfresh, ?_⟩, rfl, rfl, rfl⟩
    · intro a
      exact Nat.le_trans (h.accLe a) (Nat.add_le_add_right (Nat.le_add_right _ _) _)
    · have h1 := sum_add (n := n) h.sum
      show ∀ as : List Addr, as.Nodup →
        (as.map (owed (d.epoch.earned + n * SCALE / total (v.atHeight b.height) + d.hist) acc pend v.cur)).sum +
          SCALE * (x + 0) ≤ SCALE * (f + n)
      refine sum_grow
        hv.cur h.accLe (Nat.add_le_add_right (Nat.le_add_right _ _) _) (tot := total (v.atHeight b.height)) ?_ ?_ h1
      · right; rw [atHeight_fresh hfresh]
      · unfold rest
        simp only [hrate]
        have e : d.epoch.earned + n * SCALE / total (v.atHeight b.height) + d.hist - (d.epoch.earned + d.hist) =
          n * SCALE / total (v.atHeight b.height) := by rw [Nat.add_right_comm, Nat.add_sub_cancel_left]
        rw [e, Nat.zero_add, Nat.mul_zero, Nat.add_zero, Nat.mul_comm SCALE n]
        exact Nat.div_mul_le_self _ _
    · unfold Shape; simp only [hrate]; exact hs
  · simp only [hrate] at hd ho
    exact h.fundLinear hrate hv hd (fun h1 h2 => ho ⟨h1, h2⟩)

theorem rewardsUntil_mk {d : Dist} {amount s y r : Nat} {dur : Duration} {c : Bool}
    (hrate : d.epoch.rate = .linear amount dur c) (hs : d.epoch.started = pt dur s) (hl : 0 < len dur)
    (h : rewardsUntil d (pt dur y) = .ok r) : r = (cnt dur y - cnt dur s) / len dur * amount := by
  unfold rewardsUntil at h
  simp only [hrate, hs, if_neg (mk_ne_never _ _), since_mk, ok_bind, durDiv_with _ _ hl] at h
  obtain ⟨_, h⟩ := (mul128_ok _ _ _).mp h
  rw [← h, Nat.mul_comm]

/-- Withdrawing. -/
theorem DInv.withdraw {d d' : Dist} {acc pend : Addr → Nat} {v : Votes} {b : Block} {f x k back : Nat}
    (h : DInv d acc pend v b f x k) (hd : withdrawDist d b = .ok (d', back)) :
    DInv d' acc pend v b f (x + back) k ∧ Same d d' := by
  unfold withdrawDist at hd
  obtain ⟨_, hne, hd1⟩ := (bind_ok _ _ _).mp hd
  obtain ⟨r, hr, hd2⟩ := (bind_ok _ _ _).mp hd1
  obtain ⟨bk, hbk, hd3⟩ := (bind_ok _ _ _).mp hd2
  simp only [Except.ok.injEq, Prod.mk.injEq] at hd3
  obtain ⟨rfl, rfl⟩ := hd3
  obtain ⟨hle, rfl⟩ := (sub128_ok _ _ _).mp hbk
  simp only [require_ok, Bool.not_eq_true'] at hne
  have hs := h.shape
  unfold Shape at hs
  -- only the rest and the shape are to be shown
  have main : rest d.epoch r k + (d.funded - r) ≤ rest d.epoch d.funded k →
      Shape { d.epoch with ends := endNow b d.epoch.started } r k b (v.since < b.height) →
      DInv { d with epoch := { d.epoch with ends := endNow b d.epoch.started }, funded := r } acc pend v b f
        (x + (d.funded - r)) k := by
    intro h1 h2
    refine ⟨h.accLe, ?_, h.calm, h2⟩
    intro as has
    have h3 := h.sum as has
    show (as.map (owed (d.epoch.earned + d.hist) acc pend v.cur)).sum +
      SCALE * (x + (d.funded - r) + rest d.epoch r k) ≤ SCALE * f
    have h4 := Nat.mul_le_mul_left SCALE (Nat.add_le_add_left h1 x)
    have e : x + (d.funded - r) + rest d.epoch r k = x + (rest d.epoch r k + (d.funded - r)) := by omega
    rw [e]
    omega
  refine ⟨?_, rfl, rfl, rfl⟩
  obtain ⟨rt, hrate⟩ : ∃ rt, d.epoch.rate = rt := ⟨_, rfl⟩
  rcases rt with _ | _ | ⟨amount, dur, c⟩
  · simp only [hrate] at hs
    refine main ?_ ?_
    · simp only at hle
      unfold rest; simp only [hrate]; omega
    · unfold Shape; simp only [hrate]
      refine ⟨hs.1, ?_, hs.2.2⟩
      rw [hs.1]; rfl
  · simp only [hrate] at hs
    unfold totalRewards rewardsUntil at hr
    simp only [hrate, Except.ok.injEq] at hr
    subst hr
    refine main ?_ ?_
    · unfold rest; simp only [hrate]; omega
    · unfold Shape; simp only [hrate]
      refine ⟨hs.1, ?_⟩
      rw [hs.1]; rfl
  · simp only [hrate] at hs
    obtain ⟨ha, hl, hk, hs⟩ := hs
    rcases hs with hs | hs
    · obtain ⟨u1, u2, u3, u4, u5⟩ := hs
      have hr0 : r = 0 := by
        have : r ≤ d.funded := hle
        omega
      subst hr0
      refine main ?_ ?_
      · unfold rest; simp only [hrate]; omega
      · unfold Shape; simp only [hrate]
        refine ⟨ha, hl, hk, Or.inl ⟨u1, ?_, u3, rfl, u5⟩⟩
        rw [u1]; rfl
    · obtain ⟨s, y, u, a1, a2, a3, a4, a5, a6, a7, a8, a9, a10⟩ := hs
      rw [a1, endNow_mk] at hr
      unfold totalRewards at hr
      have hr := rewardsUntil_mk (s := s) (y := nowRaw b dur) hrate a1 hl hr
      rw [a2, isExpired_mk] at hne
      simp only [decide_eq_false_iff_not] at hne
      have hcu := cnt_mono dur a6
      have hkr : k * amount ≤ r := by
        rw [hr]
        refine Nat.mul_le_mul_right _ ?_
        rw [Nat.le_div_iff_mul_le hl]
        omega
      refine main ?_ ?_
      · simp only at hle
        unfold rest; simp only [hrate]; omega
      · unfold Shape; simp only [hrate]
        refine ⟨ha, hl, hk, Or.inr ⟨s, nowRaw b dur, u, a1, ?_, a3, a4, a6, a6, a7, by omega, Or.inl (Nat.le_refl _), ?_⟩⟩
        · rw [a1, endNow_mk]
        · rcases a10 with a10 | a10
          · exact Or.inl a10
          · right; omega

/-- A change of the rate. -/
theorem DInv.transition {d d' : Dist} {acc pend : Addr → Nat} {v : Votes} {b : Block} {f x k : Nat} {rate : Rate}
    (h : DInv d acc pend v b f x k) (hv : VInv v b) (hb : b.height < U64) (hval : validate rate = .ok ())
    (hd : transition d b (total (v.atHeight b.height)) rate = .ok d')
    (ho : rate = .immediate → v.since < b.height) :
    ∃ k', DInv d' acc pend v b f x k' ∧ Same d d' := by
  unfold DaoRewards.transition at hd
  split at hd
  · simp only [Except.ok.injEq] at hd; subst hd
    exact ⟨k, h, rfl, rfl, rfl⟩
  · obtain ⟨r, hr, hd1⟩ := (bind_ok _ _ _).mp hd
    obtain ⟨hist, hh, hd2⟩ := (bind_ok _ _ _).mp hd1
    obtain ⟨y, hy, hd3⟩ := (bind_ok _ _ _).mp hd2
    obtain ⟨fn, hfn, hd4⟩ := (bind_ok _ _ _).mp hd3
    obtain ⟨e, he, hd5⟩ := (bind_ok _ _ _).mp hd4
    simp only [Except.ok.injEq] at hd5
    subst hd5
    obtain ⟨hle, rfl⟩ := (sub128_ok _ _ _).mp hfn
    have hh := add256_ok hh
    obtain ⟨k2, i1, i2, i3, _⟩ := h.sync hv hr
    -- what is left is no more than what was not handed out
    have hleft : d.funded - y ≤ rest d.epoch d.funded k2 := by
      have hs := i3
      unfold Shape at hs
      rcases hrate : d.epoch.rate with _ | _ | ⟨amount, dur, c⟩
      · unfold rest; simp only [hrate]; omega
      · unfold rewardsUntil at hy
        simp only [hrate, Except.ok.injEq] at hy
        subst hy; omega
      · simp only [bump, hrate] at hs
        obtain ⟨ha, hl, hk, hs⟩ := hs
        unfold rest; simp only [hrate]
        rcases hs with hs | hs
        · have := hs.2.2.2.1; omega
        · obtain ⟨s, z, u, a1, a2, a3, a4, a5, a6, a7, a8, a9, a10⟩ := hs
          simp only at a1 a2 a3
          have hlat : latest d.epoch b = pt dur (min (nowRaw b dur) z) := by unfold latest; rw [a2, capAt_mk]
          rw [hlat] at hy
          have hy := rewardsUntil_mk (s := s) hrate a1 hl hy
          have hu : u = min (nowRaw b dur) z := by
            rcases a10 with a10 | a10
            · exact a10.elim
            · exact a10
          have : k2 * amount ≤ y := by
            rw [hy, ← hu]
            refine Nat.mul_le_mul_right _ ?_
            rw [Nat.le_div_iff_mul_le hl]
            exact a7
          omega
    have g1 := i1.accLe
    have g2 := sum_drop hleft i1.sum
    have g3 := i1.calm
    simp only [bump] at g1 g2 g3
    rw [Nat.add_comm r d.hist, ← hh] at g1 g2 g3
    generalize hF : d.funded - y = left at *
    unfold newEpoch at he
    rcases rate with _ | _ | ⟨amount, dur, c⟩
    · simp only [Except.ok.injEq] at he
      subst he
      refine ⟨0, ⟨?_, ?_, ?_, ?_⟩, rfl, rfl, rfl⟩
      · simp only [Nat.zero_add]; exact g1
      · simp only [Nat.zero_add]; exact g2
      · simp only [Nat.zero_add]; exact g3
      · unfold Shape; exact ⟨rfl, rfl, rfl⟩
    · have hfresh := ho rfl
      obtain ⟨z, hz, he1⟩ := (bind_ok _ _ _).mp he
      simp only [Except.ok.injEq] at he1
      subst he1
      obtain ⟨rfl, _⟩ := addAtOnce_ok hz
      refine ⟨0, ⟨?_, ?_, Or.inl hfresh, ?_⟩, rfl, rfl, rfl⟩
      · intro a
        simp only [Nat.zero_add]
        exact Nat.le_trans (g1 a) (Nat.le_add_left _ _)
      · simp only [Nat.zero_add]
        refine sum_grow hv.cur g1 (Nat.le_add_left _ _) (tot := total (v.atHeight b.height)) ?_ ?_ g2
        · right; rw [atHeight_fresh hfresh]
        · unfold rest
          simp only [Nat.mul_zero, Nat.add_zero, Nat.add_sub_cancel, Nat.mul_comm SCALE left]
          exact Nat.div_mul_le_self _ _
      · unfold Shape; exact ⟨rfl, rfl⟩
    · obtain ⟨p, hp, he1⟩ := (bind_ok _ _ _).mp he
      simp only [Except.ok.injEq] at he1
      subst he1
      obtain ⟨rfl, ha⟩ := fundedPeriod_ok hp
      have hl : 0 < len dur := by
        unfold validate at hval
        obtain ⟨_, _, hz⟩ := (bind_ok _ _ _).mp hval
        simp only [require_ok, Bool.not_eq_true'] at hz
        cases dur <;> simp [isZero, len] at hz ⊢ <;> omega
      obtain ⟨z, hz, hz1, hz2⟩ := newEnd_mk dur (per (len dur) left amount) b hb
      refine ⟨0, ⟨?_, ?_, ?_, ?_⟩, rfl, rfl, rfl⟩
      · simp only [Nat.zero_add]; exact g1
      · simp only [Nat.zero_add]
        unfold rest
        simp only [Nat.zero_mul, Nat.sub_zero]
        exact g2
      · simp only [Nat.zero_add]; exact g3
      · unfold Shape
        simp only
        exact ⟨by omega, hl, fun _ => trivial, Or.inr (Active.new hl (nowAs_mk _ _) (nowAs_mk _ _) hz hz1 hz2 _)⟩

/-! ### Updating members -/

/-- What each member of a distribution is credited for. -/
def accOf (s : State) (id : Nat) : Addr → Nat := fun a => getD0 s.accounted (id, a)
/-- What each member of a distribution has pending. -/
def pendOf (s : State) (id : Nat) : Addr → Nat := fun a => getD0 s.pending (id, a)

/-- What updating members leaves alone. -/
structure Frame (s s' : State) : Prop where
  owner : s'.ownership = s.ownership
  count : s'.count = s.count
  hooks : s'.hooks = s.hooks
  none : ∀ id, s.dists.get id = none → s'.dists.get id = none ∧ accOf s' id = accOf s id ∧ pendOf s' id = pendOf s id
  some : ∀ id d, s.dists.get id = some d → ∃ d', s'.dists.get id = some d' ∧ Same d d'

theorem Frame.refl (s : State) : Frame s s :=
  ⟨rfl, rfl, rfl, fun _ h => ⟨h, rfl, rfl⟩, fun _ d h => ⟨d, h, rfl, rfl, rfl⟩⟩

theorem Same.trans {a b c : Dist} (h : Same a b) (h' : Same b c) : Same a c :=
  ⟨h'.1.trans h.1, h'.2.1.trans h.2.1, h'.2.2.trans h.2.2⟩

theorem Frame.trans {a b c : State} (h : Frame a b) (h' : Frame b c) : Frame a c := by
  refine ⟨h'.owner.trans h.owner, h'.count.trans h.count, h'.hooks.trans h.hooks, ?_, ?_⟩
  · intro id hn
    obtain ⟨n1, n2, n3⟩ := h.none id hn
    obtain ⟨m1, m2, m3⟩ := h'.none id n1
    exact ⟨m1, m2.trans n2, m3.trans n3⟩
  · intro id d hd
    obtain ⟨d1, h1, s1⟩ := h.some id d hd
    obtain ⟨d2, h2, s2⟩ := h'.some id d1 h1
    exact ⟨d2, h2, s1.trans s2⟩

theorem updateRewards_ok {s s' : State} {b : Block} {ans : Addr → Answer} {a : Addr} {i : Nat}
    (h : updateRewards s b ans a i = .ok s') :
    ∃ d r n, s.dists.get i = some d ∧ activeEarned d.epoch b (ans d.vp).total = .ok r ∧
      accrued ((ans d.vp).of a) (r + d.hist) (accOf s i a) = .ok n ∧
      s' = { s with
             dists := s.dists.set i { d with epoch := bump { d.epoch with earned := r } b }
             pending := s.pending.set (i, a) (n + pendOf s i a)
             accounted := s.accounted.set (i, a) (r + d.hist) } := by
  unfold updateRewards at h
  obtain ⟨d, hd, h1⟩ := (bind_ok _ _ _).mp h
  obtain ⟨r, hr, h2⟩ := (bind_ok _ _ _).mp h1
  obtain ⟨t, ht, h3⟩ := (bind_ok _ _ _).mp h2
  obtain ⟨n, hn, h4⟩ := (bind_ok _ _ _).mp h3
  obtain ⟨p, hp, h5⟩ := (bind_ok _ _ _).mp h4
  have ht := add256_ok ht; subst ht
  obtain ⟨_, rfl⟩ := (add128_ok _ _ _).mp hp
  simp only [Except.ok.injEq] at h5
  exact ⟨d, r, n, (orErr_ok _ _ _).mp hd, hr, hn, h5.symm⟩

theorem set_other {m : AMap (Nat × Addr) Nat} {i id : Nat} (a q : Addr) (n : Nat) (h : i ≠ id) :
    getD0 (AMap.set m (i, a) n) (id, q) = getD0 m (id, q) := by
  rw [getD0_set, if_neg]
  intro e
  simp only [Prod.mk.injEq] at e
  exact h e.1

theorem set_same (m : AMap (Nat × Addr) Nat) (id : Nat) (a q : Addr) (n : Nat) :
    getD0 (AMap.set m (id, a) n) (id, q) = if a = q then n else getD0 m (id, q) := by
  rw [getD0_set]
  by_cases h : a = q
  · subst h; simp
  · rw [if_neg h, if_neg]
    intro e
    simp only [Prod.mk.injEq, true_and] at e
    exact h e

theorem updateRewards_frame {s s' : State} {b : Block} {ans : Addr → Answer} {a : Addr} {i : Nat}
    (h : updateRewards s b ans a i = .ok s') : Frame s s' := by
  obtain ⟨d, r, n, hd, _, _, rfl⟩ := updateRewards_ok h
  refine ⟨rfl, rfl, rfl, ?_, ?_⟩
  · intro id hn
    have hne : i ≠ id := by rintro rfl; rw [hd] at hn; cases hn
    refine ⟨?_, ?_, ?_⟩
    · simp only; rw [AMap.get_set_ne _ _ hne]; exact hn
    · funext q; exact set_other _ _ _ hne
    · funext q; exact set_other _ _ _ hne
  · intro id d1 h1
    by_cases hi : i = id
    · subst hi
      rw [hd] at h1; cases h1
      exact ⟨_, AMap.get_set_self _ _ _, rfl, rfl, rfl⟩
    · refine ⟨d1, ?_, rfl, rfl, rfl⟩
      simp only; rw [AMap.get_set_ne _ _ hi]; exact h1

theorem updateIds_frame {b : Block} {ans : Addr → Answer} {a : Addr} {ids : List Nat} {s s' : State}
    (h : updateIds b ans a ids s = .ok s') : Frame s s' := by
  induction ids generalizing s with
  | nil => simp only [updateIds, Except.ok.injEq] at h; subst h; exact Frame.refl _
  | cons i ids ih =>
    unfold updateIds at h
    obtain ⟨s1, h1, h2⟩ := (bind_ok _ _ _).mp h
    exact (updateRewards_frame h1).trans (ih h2)

theorem updateMembers_frame {b : Block} {ans : Addr → Answer} {ids : List Nat} {as : List Addr} {s s' : State}
    (h : updateMembers b ans ids as s = .ok s') : Frame s s' := by
  induction as generalizing s with
  | nil => simp only [updateMembers, Except.ok.injEq] at h; subst h; exact Frame.refl _
  | cons a as ih =>
    unfold updateMembers at h
    obtain ⟨s1, h1, h2⟩ := (bind_ok _ _ _).mp h
    exact (updateIds_frame h1).trans (ih h2)

theorem execHook_ok {s s' : State} {b : Block} {ans : Addr → Answer} {h : Addr} {as : List Addr}
    (hs : execHook s b ans h as = .ok s') : ∃ ids, s.hooks.get h = some ids ∧ updateMembers b ans ids as s = .ok s' := by
  unfold execHook at hs
  obtain ⟨ids, h1, h2⟩ := (bind_ok _ _ _).mp hs
  exact ⟨ids, (orErr_ok _ _ _).mp h1, h2⟩

theorem announce_frame {b : Block} {ans : Addr → Answer} {as : List Addr} {hs : List Addr} {s s' : State}
    (h : announce b ans as hs s = .ok s') : Frame s s' := by
  induction hs generalizing s with
  | nil => simp only [announce, Except.ok.injEq] at h; subst h; exact Frame.refl _
  | cons a hs ih =>
    unfold announce at h
    obtain ⟨s1, h1, h2⟩ := (bind_ok _ _ _).mp h
    obtain ⟨_, _, h1⟩ := execHook_ok h1
    exact (updateMembers_frame h1).trans (ih h2)

/-- What the voting contract of the distribution answers. -/
def Answers (ans : Addr → Answer) (vp : Addr) (v : Votes) (b : Block) : Prop :=
  (ans vp).total = total (v.atHeight b.height) ∧ ∀ a, (ans vp).of a = getD0 (v.atHeight b.height) a

/-- The state of a distribution, with the members `m` credited in this block. -/
def Known (id : Nat) (vp : Addr) (v : Votes) (b : Block) (f x : Nat) (m : Addr → Prop) (s : State) : Prop :=
  ∃ d k, s.dists.get id = some d ∧ d.vp = vp ∧ DInv d (accOf s id) (pendOf s id) v b f x k ∧
    (∀ a, m a → accOf s id a = d.epoch.earned + d.hist) ∧ ((∃ a, m a) → Shape d.epoch d.funded k b False)

theorem Known.weaken {id : Nat} {vp : Addr} {v : Votes} {b : Block} {f x : Nat} {m m' : Addr → Prop} {s : State}
    (h : Known id vp v b f x m s) (hm : ∀ a, m' a → m a) : Known id vp v b f x m' s := by
  obtain ⟨d, k, h1, h2, h3, h4, h5⟩ := h
  exact ⟨d, k, h1, h2, h3, fun a ha => h4 a (hm a ha), fun ⟨a, ha⟩ => h5 ⟨a, hm a ha⟩⟩

theorem Known.update {id : Nat} {vp : Addr} {v : Votes} {b : Block} {f x : Nat} {m : Addr → Prop} {s s' : State}
    {ans : Addr → Answer} {a : Addr} {i : Nat} (h : Known id vp v b f x m s) (hv : VInv v b) (ha : Answers ans vp v b)
    (hs : updateRewards s b ans a i = .ok s') : Known id vp v b f x (fun q => m q ∨ (i = id ∧ q = a)) s' := by
  obtain ⟨d, r, n, hd, hr, hn, rfl⟩ := updateRewards_ok hs
  obtain ⟨d0, k, h1, h2, h3, h4, h5⟩ := h
  by_cases hi : i = id
  · subst hi
    rw [hd] at h1; cases h1
    subst h2
    rw [ha.1] at hr
    rw [ha.2] at hn
    obtain ⟨k', i1, i2, i3, i4⟩ := h3.sync hv hr
    have i5 := i1.account (a := a) hn
    refine ⟨_, k', AMap.get_set_self _ _ _, rfl, ?_, ?_, ?_⟩
    · have e1 : accOf { s with
             dists := s.dists.set i { d with epoch := bump { d.epoch with earned := r } b }
             pending := s.pending.set (i, a) (n + pendOf s i a)
             accounted := s.accounted.set (i, a) (r + d.hist) } i = upd (accOf s i) a (r + d.hist) := by
        funext q; exact set_same _ _ _ _ _
      have e2 : pendOf { s with
             dists := s.dists.set i { d with epoch := bump { d.epoch with earned := r } b }
             pending := s.pending.set (i, a) (n + pendOf s i a)
             accounted := s.accounted.set (i, a) (r + d.hist) } i = upd (pendOf s i) a (n + pendOf s i a) := by
        funext q; exact set_same _ _ _ _ _
      rw [e1, e2]
      exact i5
    · intro q hq
      show getD0 (AMap.set s.accounted (i, a) (r + d.hist)) (i, q) = r + d.hist
      rw [set_same]
      by_cases hqa : a = q
      · rw [if_pos hqa]
      · rw [if_neg hqa]
        rcases hq with hq | hq
        · rw [i4 (h5 ⟨q, hq⟩)]; exact h4 q hq
        · exact absurd hq.2.symm hqa
    · intro _; exact i3
  · have e1 : accOf { s with
             dists := s.dists.set i { d with epoch := bump { d.epoch with earned := r } b }
             pending := s.pending.set (i, a) (n + pendOf s i a)
             accounted := s.accounted.set (i, a) (r + d.hist) } id = accOf s id := by
      funext q; exact set_other _ _ _ hi
    have e2 : pendOf { s with
             dists := s.dists.set i { d with epoch := bump { d.epoch with earned := r } b }
             pending := s.pending.set (i, a) (n + pendOf s i a)
             accounted := s.accounted.set (i, a) (r + d.hist) } id = pendOf s id := by
      funext q; exact set_other _ _ _ hi
    refine ⟨d0, k, ?_, h2, ?_, ?_, ?_⟩
    · simp only; rw [AMap.get_set_ne _ _ hi]; exact h1
    · rw [e1, e2]; exact h3
    · intro q hq
      rw [e1]
      rcases hq with hq | hq
      · exact h4 q hq
      · exact absurd hq.1 hi
    · rintro ⟨q, hq⟩
      rcases hq with hq | hq
      · exact h5 ⟨q, hq⟩
      · exact absurd hq.1 hi

theorem Known.ids {id : Nat} {vp : Addr} {v : Votes} {b : Block} {f x : Nat} {ans : Addr → Answer} {a : Addr}
    {ids : List Nat} (hv : VInv v b) (ha : Answers ans vp v b) {m : Addr → Prop} {s s' : State}
    (h : Known id vp v b f x m s) (hs : updateIds b ans a ids s = .ok s') :
    Known id vp v b f x (fun q => m q ∨ (id ∈ ids ∧ q = a)) s' := by
  induction ids generalizing s m with
  | nil =>
    simp only [updateIds, Except.ok.injEq] at hs; subst hs
    exact h.weaken (fun q hq => by simpa using hq)
  | cons i ids ih =>
    unfold updateIds at hs
    obtain ⟨s1, h1, h2⟩ := (bind_ok _ _ _).mp hs
    refine (ih (h.update hv ha h1) h2).weaken ?_
    rintro q (hq | ⟨hq, rfl⟩)
    · exact Or.inl (Or.inl hq)
    · rcases List.mem_cons.1 hq with rfl | hq
      · exact Or.inl (Or.inr ⟨rfl, rfl⟩)
      · exact Or.inr ⟨hq, rfl⟩

theorem Known.members {id : Nat} {vp : Addr} {v : Votes} {b : Block} {f x : Nat} {ans : Addr → Answer} {ids : List Nat}
    {as : List Addr} (hv : VInv v b) (ha : Answers ans vp v b) {m : Addr → Prop} {s s' : State}
    (h : Known id vp v b f x m s) (hs : updateMembers b ans ids as s = .ok s') :
    Known id vp v b f x (fun q => m q ∨ (id ∈ ids ∧ q ∈ as)) s' := by
  induction as generalizing s m with
  | nil =>
    simp only [updateMembers, Except.ok.injEq] at hs; subst hs
    exact h.weaken (fun q hq => by simpa using hq)
  | cons a as ih =>
    unfold updateMembers at hs
    obtain ⟨s1, h1, h2⟩ := (bind_ok _ _ _).mp hs
    refine (ih (h.ids hv ha h1) h2).weaken ?_
    rintro q (hq | ⟨h3, hq⟩)
    · exact Or.inl (Or.inl hq)
    · rcases List.mem_cons.1 hq with rfl | hq
      · exact Or.inl (Or.inr ⟨h3, rfl⟩)
      · exact Or.inr ⟨h3, hq⟩

theorem Known.announce {id : Nat} {vp : Addr} {v : Votes} {b : Block} {f x : Nat} {ans : Addr → Answer}
    {as hs : List Addr} (hv : VInv v b) (ha : Answers ans vp v b) {m : Addr → Prop} {s s' : State}
    (h : Known id vp v b f x m s) (hh : announce b ans as hs s = .ok s') :
    Known id vp v b f x (fun q => m q ∨ ((∃ c ∈ hs, ∃ l, s.hooks.get c = some l ∧ id ∈ l) ∧ q ∈ as)) s' := by
  induction hs generalizing s m with
  | nil =>
    simp only [DaoRewards.announce, Except.ok.injEq] at hh; subst hh
    exact h.weaken (fun q hq => by simpa using hq)
  | cons c hs ih =>
    unfold DaoRewards.announce at hh
    obtain ⟨s1, h1, h2⟩ := (bind_ok _ _ _).mp hh
    obtain ⟨ids, h0, h1⟩ := execHook_ok h1
    have hf := updateMembers_frame h1
    refine (ih (h.members hv ha h1) h2).weaken ?_
    rintro q (hq | ⟨⟨c', hc', l, h3, h4⟩, hq⟩)
    · exact Or.inl (Or.inl hq)
    · rcases List.mem_cons.1 hc' with rfl | hc'
      · rw [h0] at h3; cases h3
        exact Or.inl (Or.inr ⟨h4, hq⟩)
      · refine Or.inr ⟨⟨c', hc', l, ?_, h4⟩, hq⟩
        rw [hf.hooks]; exact h3

end Verif.DaoRewards
