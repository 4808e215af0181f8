import Verif.Props.TokenDaoCustody
/-!
# C90: whether the holders of a new token can make their DAO active
-/

namespace Verif.TokenDao
open Verif Verif.Spec.TokenDao
open Verif.TokenStaked (afterStake afterUnstake SameMoney MAX_CLAIMS)
open Verif.Cw20Stake (hookMsgs)

/-! ## The threshold -/

/-- What the module answers, for thresholds it accepted. -/
theorem active_iff {th : Option Active.ActiveThreshold} {n staked all : Nat} (hs : Sensible th n) (hall : all < U128) :
    ∃ r, Active.isActive th staked all = .ok r ∧ (r = true ↔ Met th staked all) := by
  cases th with
  | none => exact ⟨true, rfl, by simp [Met]⟩
  | some x =>
    cases x with
    | absolute k => exact ⟨decide (k ≤ staked), rfl, by simp [Met]⟩
    | percentage p =>
      refine ⟨_, by simp only [Active.isActive, Active.percentCount_eq hall hs.2, ok_bind]; rfl, ?_⟩
      rw [decide_eq_true_eq, Active.count_le]
      simp only [Met]
      rw [Nat.mul_comm p all]
      generalize all * p = y
      omega

theorem met_mono {th : Option Active.ActiveThreshold} {s s' all : Nat} (h : Met th s all) (hs : s ≤ s') : Met th s' all := by
  cases th with
  | none => trivial
  | some x =>
    cases x with
    | absolute k => simp only [Met] at *; omega
    | percentage p =>
      simp only [Met] at *
      have := Nat.mul_le_mul_right (10 ^ 18) hs
      exact Nat.lt_of_lt_of_le h (Nat.add_le_add_right this _)

/-! ## The coins the holders can stake -/

theorem two_holds (c : Issuer.Chain) (d : Nat) {a q : Addr} (h : a ≠ q) :
    getD0 c.bal (d, a) + getD0 c.bal (d, q) ≤ supply c d := by
  have := AMap.at_add_at_le_sum (fun (k : Nat × Addr) v => if k.1 = d then v else 0) c.bal (k := (d, a)) (q := (d, q))
    (by simpa using h)
  have e : ∀ x, AMap.at? (fun (k : Nat × Addr) v => if k.1 = d then v else 0) c.bal (d, x) = getD0 c.bal (d, x) := by
    intro x
    unfold AMap.at? getD0
    cases c.bal.get (d, x) <;> simp
  rw [e, e] at this
  exact this

theorem idle_silent {dao : Addr} {log : List Event} (h : Idle dao log) : Silent dao log := fun e he _ _ => h e he

theorem idle_run {b0 b : Block} {w0 w : World} {log : List Event} (h0 : Init b0 w0) (hr : sys.Run w0 b0 log w b)
    (hi : Idle w0.vm.dao log) :
    w.vm.threshold = w0.vm.threshold ∧ w.vm.unstakingDuration = w0.vm.unstakingDuration ∧
      holds w0 w0.vm.dao ≤ holds w w0.vm.dao := by
  induction hr with
  | refl => exact ⟨rfl, rfl, Nat.le_refl _⟩
  | @step w1 w2 b1 l env call out hr hb hs ih =>
    have hi' : Idle w0.vm.dao l := fun e he => hi e (List.mem_cons_of_mem _ he)
    obtain ⟨i1, i2, i3⟩ := ih hi'
    have hq := quiet_run h0 hr (idle_silent hi')
    have hne : env.sender ≠ w0.vm.dao := hi _ List.mem_cons_self
    obtain ⟨_, _, q3, q4⟩ := quiet_step h0 hq hs (fun m _ => hne)
    obtain ⟨q5, q6⟩ := q4 hne
    have hap := (inv_reach ⟨b0, w0, h0, hr⟩).apartDao
    rw [hq.dao] at hap
    exact ⟨q5.trans i1, q6.trans i2, Nat.le_trans i3 (q3 _ (Ne.symm hne) hap)⟩

/-- **C90.** As long as the DAO does nothing, no more can be staked than the coins that are not the DAO's, whoever gets
them. -/
theorem C90_ceiling {b0 b : Block} {w0 w : World} {log : List Event} (h0 : Init b0 w0) (hr : sys.Run w0 b0 log w b)
    (hi : Idle w0.vm.dao log) :
    w.vm.total + holds w0 w0.vm.dao ≤ inCirculation w0 := by
  have hq := quiet_run h0 hr (idle_silent hi)
  obtain ⟨_, _, h3⟩ := idle_run h0 hr hi
  have hcov := (C89_safe (b' := b) h0 hr (idle_silent hi)).1
  have hinv := inv_reach ⟨b0, w0, h0, hr⟩
  rw [← hinv.sum] at hcov
  have h4 := two_holds w.iss.chain w.denom (a := w.self) (q := w0.vm.dao) (by
    have := hinv.apartDao; rw [hq.dao] at this; exact Ne.symm this)
  have h5 := hq.supply
  simp only [holds, inCirculation] at *
  omega

/-- **C90.** If the coins that are not the DAO's cannot meet the threshold, the DAO is not active at any point of any
history in which it does nothing itself. -/
theorem C90_locked {b0 b : Block} {w0 w : World} {log : List Event} (h0 : Init b0 w0) (hr : sys.Run w0 b0 log w b)
    (hi : Idle w0.vm.dao log)
    (hm : ¬ Met w0.vm.threshold (inCirculation w0 - holds w0 w0.vm.dao) (inCirculation w0)) :
    active w = .ok false := by
  have hq := quiet_run h0 hr (idle_silent hi)
  obtain ⟨h1, _, _⟩ := idle_run h0 hr hi
  have hcap := C90_ceiling h0 hr hi
  have hfit := (inv_reach ⟨b0, w0, h0, hr⟩).fits
  have hsens : ∃ n, Sensible w0.vm.threshold n := by
    obtain ⟨name, c, dao, self, issuer, d, th, t, _, _, _, h | h⟩ := h0
    · obtain ⟨ha, hm, _⟩ := callback_forward h
      exact ⟨_, by rw [hm.vm]; exact ha.2.1⟩
    · obtain ⟨ha, hm, _⟩ := newModule_forward h
      exact ⟨_, by rw [hm.vm]; exact ha.2.1⟩
  obtain ⟨n, hn⟩ := hsens
  have hcirc : supply w.iss.chain w.denom = inCirculation w0 := hq.supply
  unfold active TokenStaked.active
  rw [hcirc] at hfit ⊢
  rw [h1]
  obtain ⟨r, hr', hiff⟩ := active_iff (staked := w.vm.total) hn hfit
  rw [hr']
  cases r with
  | false => rfl
  | true => exact absurd (met_mono (hiff.1 rfl) (by omega)) hm

/-! ## Staking everything -/

/-- One holder stakes. -/
theorem stake_runs {b0 b b' : Block} {w0 w : World} {log : List Event} (h0 : Init b0 w0) (hr : sys.Run w0 b0 log w b)
    (hsil : Silent w0.vm.dao log) {a : Addr} {n : Nat} (ha : a ≠ w.self) (hn : n ≠ 0) (hh : n ≤ holds w a) :
    ∃ ch, Transfers w a w.self n ch ∧
      step w { block := b', sender := a } (.stake n) =
        .ok ({ w.withChain ch with vm := afterStake w.vm b' a n }, { hooks := hookMsgs w.vm.hooks true a n }) := by
  have hinv := inv_reach ⟨b0, w0, h0, hr⟩
  have hq := quiet_run h0 hr hsil
  have hcov := (C89_safe (b' := b) h0 hr hsil).1
  rw [← hinv.sum] at hcov
  have hfit := hinv.fits
  have h2 := two_holds w.iss.chain w.denom ha
  obtain ⟨ch, hch⟩ := transfers_run (src := a) (dest := w.self) hh hfit (by
    intro hk; rw [hq.hook] at hk; cases hk)
  have h1 : w.vm.stakedOf a ≤ w.vm.total := by rw [hinv.sum]; exact getD0_le_total _ _
  simp only [holds] at *
  have e1 : add128 (w.vm.stakedOf a) n = .ok (w.vm.stakedOf a + n) := (add128_ok _ _ _).2 ⟨by omega, rfl⟩
  have e2 : add128 w.vm.total n = .ok (w.vm.total + n) := (add128_ok _ _ _).2 ⟨by omega, rfl⟩
  have he : TokenStaked.execStake w.vm b' a n = .ok (afterStake w.vm b' a n, { hooks := hookMsgs w.vm.hooks true a n }) := by
    simp only [TokenStaked.execStake, require, hn, ne_eq, not_false_eq_true, decide_true, if_true, ok_bind, e1, e2]
    rfl
  refine ⟨ch, hch, ?_⟩
  unfold Transfers at hch
  simp only [step, require, ha, ne_eq, not_false_eq_true, decide_true, if_true, ok_bind, hch, he]
  rfl

/-- All holders of a list stake all they have. -/
theorem stake_all {b0 : Block} {w0 : World} (h0 : Init b0 w0) : ∀ (L : List Addr) {w : World} {b : Block} {log : List Event},
    sys.Run w0 b0 log w b → Idle w0.vm.dao log → L.Nodup → (∀ a ∈ L, a ≠ w0.self ∧ a ≠ w0.vm.dao ∧ holds w a ≠ 0) →
    ∃ w' log', sys.Run w0 b0 log' w' b ∧ Idle w0.vm.dao log' ∧ w'.vm.total = w.vm.total + (L.map (holds w)).sum := by
  intro L
  induction L with
  | nil => intro w b log hr hi _ _; exact ⟨w, log, hr, hi, by simp⟩
  | cons a L ih =>
    intro w b log hr hi hnd hL
    obtain ⟨ha1, ha2, ha3⟩ := hL a List.mem_cons_self
    have hq := quiet_run h0 hr (idle_silent hi)
    rw [← hq.addr] at ha1
    obtain ⟨ch, ht, hs⟩ := stake_runs (b' := b) h0 hr (idle_silent hi) ha1 ha3 (Nat.le_refl _)
    have hr' : sys.Run w0 b0 _ _ b := Sys.Run.step (M := sys) (env := { block := b, sender := a })
      (call := .stake (holds w a)) hr ⟨Nat.le_refl _, Nat.le_refl _⟩ hs
    have hi' : Idle w0.vm.dao (⟨w, { block := b, sender := a }, .stake (holds w a),
        { hooks := hookMsgs w.vm.hooks true a (holds w a) },
        { w.withChain ch with vm := afterStake w.vm b a (holds w a) }⟩ :: log) := by
      intro e he
      rcases List.mem_cons.1 he with rfl | he
      · exact ha2
      · exact hi e he
    obtain ⟨hnm, hnd'⟩ := List.nodup_cons.1 hnd
    have hkeep : ∀ x ∈ L, holds { w.withChain ch with vm := afterStake w.vm b a (holds w a) } x = holds w x := by
      intro x hx
      have h1 := (ht.holds ha1 x).2
      have hxa : x ≠ a := fun h => hnm (h ▸ hx)
      have hxs : x ≠ w.self := by rw [hq.addr]; exact (hL x (List.mem_cons_of_mem _ hx)).1
      rw [if_neg hxa, if_neg hxs] at h1
      exact h1
    obtain ⟨w', log', r1, r2, r3⟩ := ih hr' hi' hnd' (fun x hx => by
      obtain ⟨x1, x2, x3⟩ := hL x (List.mem_cons_of_mem _ hx)
      exact ⟨x1, x2, by rw [hkeep x hx]; exact x3⟩)
    refine ⟨w', log', r1, r2, ?_⟩
    have e1 : TokenStaked.State.total (afterStake w.vm b a (holds w a)) = w.vm.total + holds w a :=
      TokenStaked.total_save _ _ _
    rw [r3, List.map_congr_left hkeep]
    simp only [List.map_cons, List.sum_cons]
    rw [e1]; omega

/-! ## The initial balances -/

theorem sum_single {L : List Addr} (hL : L.Nodup) {x : Addr} (hx : x ∈ L) (n : Nat) :
    (L.map (fun a => if x = a then n else 0)).sum = n := by
  induction L with
  | nil => cases hx
  | cons y L ih =>
    obtain ⟨h1, h2⟩ := List.nodup_cons.1 hL
    simp only [List.map_cons, List.sum_cons]
    by_cases hxy : x = y
    · subst hxy
      have : (L.map (fun a => if x = a then n else 0)).sum = 0 := by
        apply List.sum_eq_zero
        intro z hz
        obtain ⟨q, hq, rfl⟩ := List.mem_map.1 hz
        rw [if_neg (fun hh : x = q => h1 (hh ▸ hq))]
      simp [this]
    · rw [if_neg hxy, ih h2 (by rcases List.mem_cons.1 hx with h | h; exact absurd h hxy; exact h)]
      omega

theorem sum_listed {L : List Addr} (hL : L.Nodup) : ∀ (l : List (Addr × Nat)), (∀ x ∈ l, x.1 ∈ L) →
    (L.map (listed l)).sum = sumOf l := by
  intro l
  induction l with
  | nil =>
    intro _
    apply List.sum_eq_zero
    intro z hz
    obtain ⟨q, hq, rfl⟩ := List.mem_map.1 hz
    rfl
  | cons x l ih =>
    intro h
    have e : (L.map (listed (x :: l))).sum = (L.map (fun a => if x.1 = a then x.2 else 0)).sum + (L.map (listed l)).sum := by
      rw [List.map_congr_left (fun a _ => listed_cons x l a)]
      generalize L = L'
      induction L' with
      | nil => rfl
      | cons y L' ih' => simp only [List.map_cons, List.sum_cons]; omega
    rw [e, sum_single hL (h x List.mem_cons_self), ih (fun y hy => h y (List.mem_cons_of_mem _ hy))]
    simp [sumOf]

theorem listed_ne {l : List (Addr × Nat)} (h : ∀ x ∈ l, x.2 ≠ 0) {a : Addr} (ha : a ∈ l.map (·.1)) : listed l a ≠ 0 := by
  induction l with
  | nil => simp at ha
  | cons x l ih =>
    rw [listed_cons]
    rcases List.mem_cons.1 ha with rfl | ha
    · have := h x List.mem_cons_self
      simp; omega
    · have := ih (fun y hy => h y (List.mem_cons_of_mem _ hy)) ha
      omega

theorem listed_zero {l : List (Addr × Nat)} {a : Addr} (h : ∀ x ∈ l, x.1 ≠ a) : listed l a = 0 := by
  induction l with
  | nil => rfl
  | cons x l ih =>
    rw [listed_cons, if_neg (h x List.mem_cons_self), ih (fun y hy => h y (List.mem_cons_of_mem _ hy))]

/-! ## C90 -/

variable {name : Addr → Nat → Nat} {b0 : Block} {c : Issuer.Chain} {dao self issuer : Addr} {d : Option Duration}
  {th : Option Active.ActiveThreshold} {t : NewToken} {w0 : World}

/-- **C90.** The holders of the new token can make their new DAO active, without any doing of the DAO, exactly if the coins
that are listed for them meet the threshold out of all coins, those minted for the DAO included. -/
theorem C90_active_iff (hne : dao ≠ self ∧ dao ≠ issuer ∧ self ≠ issuer)
    (h : create name b0 c dao self issuer d th t = .ok w0)
    (hl : ∀ x ∈ t.balances, x.1 ≠ dao ∧ x.1 ≠ self ∧ x.1 ≠ issuer) :
    (∃ log w b, sys.Run w0 b0 log w b ∧ Idle dao log ∧ active w = .ok true) ↔
      Met th (sumOf t.balances) (sumOf t.balances + t.daoBalance.getD 0) := by
  have h0 : Init b0 w0 := ⟨name, c, dao, self, issuer, d, th, t, hne.1, hne.2.1, hne.2.2, Or.inl h⟩
  obtain ⟨hA, hm, _⟩ := callback_forward h
  obtain ⟨hH, hC, _⟩ := C88_created h
  have hdao : w0.vm.dao = dao := by rw [hm.vm]; rfl
  have hth : w0.vm.threshold = th := by rw [hm.vm]; rfl
  have hz : listed t.balances dao = 0 := listed_zero (fun x hx => (hl x hx).1)
  have hold : holds w0 w0.vm.dao = t.daoBalance.getD 0 := by
    rw [hdao, hH]; unfold promised; rw [hz, if_pos rfl]; omega
  constructor
  · rintro ⟨log, w, b, hr, hi, hact⟩
    by_contra hmet
    rw [← hdao] at hi
    have := C90_locked h0 hr hi (by
      rw [hth, hC, hold, Nat.add_sub_cancel]; exact hmet)
    rw [this] at hact
    cases hact
  · intro hmet
    obtain ⟨w, log, r1, r2, r3⟩ := stake_all h0 (t.balances.map (·.1)).dedup (w := w0) (b := b0) (log := []) (.refl)
      (fun e he => absurd he List.not_mem_nil) (List.nodup_dedup _) (by
        intro a ha
        rw [List.mem_dedup] at ha
        obtain ⟨x, hx, rfl⟩ := List.mem_map.1 ha
        refine ⟨by rw [hm.addr]; exact (hl x hx).2.1, by rw [hdao]; exact (hl x hx).1, ?_⟩
        rw [hH]
        have := listed_ne hA.2.2.2.1 ha
        unfold promised
        omega)
    have hsum : ((t.balances.map (·.1)).dedup.map (holds w0)).sum = sumOf t.balances := by
      rw [← sum_listed (List.nodup_dedup (t.balances.map (·.1))) t.balances (fun x hx => by
        rw [List.mem_dedup]; exact List.mem_map.2 ⟨x, hx, rfl⟩)]
      congr 1
      apply List.map_congr_left
      intro a ha
      rw [List.mem_dedup] at ha
      obtain ⟨x, hx, rfl⟩ := List.mem_map.1 ha
      rw [hH]; unfold promised; rw [if_neg (hl x hx).1]; omega
    have hz0 : w0.vm.total = 0 := by rw [hm.vm]; rfl
    rw [hsum, hz0, Nat.zero_add] at r3
    refine ⟨log, w, b0, r1, by rw [← hdao]; exact r2, ?_⟩
    have hq := quiet_run h0 r1 (idle_silent r2)
    have hfit := (inv_reach ⟨b0, w0, h0, r1⟩).fits
    have hcirc : supply w.iss.chain w.denom = inCirculation w0 := hq.supply
    unfold active TokenStaked.active
    rw [hcirc] at hfit ⊢
    rw [(idle_run h0 r1 r2).1, hth, r3]
    obtain ⟨r, hr', hiff⟩ := active_iff (staked := sumOf t.balances) hA.2.1 hfit
    rw [hr', hiff.2 (by rw [hC]; exact hmet)]

/-- **C90.** Every threshold the module accepts can be met by the holders, if it is a count, or if nothing is minted for
the DAO. In particular such a DAO is not born inactive for good.

Not proved, because it is false (`C90_born_locked`): the same for a percentage when coins are minted for the DAO. -/
theorem C90_can_activate_partial (hne : dao ≠ self ∧ dao ≠ issuer ∧ self ≠ issuer)
    (h : create name b0 c dao self issuer d th t = .ok w0)
    (hl : ∀ x ∈ t.balances, x.1 ≠ dao ∧ x.1 ≠ self ∧ x.1 ≠ issuer)
    (hp : t.daoBalance.getD 0 = 0 ∨ ∀ p, th ≠ some (.percentage p)) :
    ∃ log w b, sys.Run w0 b0 log w b ∧ Idle dao log ∧ active w = .ok true := by
  rw [C90_active_iff hne h hl]
  obtain ⟨hA, _, _⟩ := callback_forward h
  have hs := hA.2.1
  cases th with
  | none => trivial
  | some x =>
    cases x with
    | absolute k => exact hs.2
    | percentage p =>
      rcases hp with hp | hp
      · rw [hp, Nat.add_zero]
        obtain ⟨_, h2⟩ := hs
        rw [DEC_ONE_eq] at h2
        simp only [Met]
        have := Nat.mul_le_mul_right (sumOf t.balances) h2
        generalize p * sumOf t.balances = y at *
        omega
      · exact absurd rfl (hp p)

end Verif.TokenDao
