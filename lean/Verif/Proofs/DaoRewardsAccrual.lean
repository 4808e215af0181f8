import Verif.Proofs.DaoRewardsHistory
/-!
# What members of a distribution accrue
-/

namespace Verif.DaoRewards
open ExternalRewards (SCALE SCALE_pos mul256 add256 subN to128)
open Spec.DaoRewards

/-! ### Updating twice in a block -/

theorem activeEarned_again {e : Epoch} {b : Block} {t r : Nat} (h : activeEarned e b t = .ok r) :
    activeEarned (bump { e with earned := r } b) b t = .ok r := by
  unfold activeEarned at h ⊢
  rcases hrate : e.rate with _ | _ | ⟨amount, dur, c⟩
  · simp only [hrate, bump] at h ⊢; exact h
  · simp only [hrate, bump]
  · simp only [hrate, bump, latest]
    rcases hx : e.ends with y | y | _
    · simp only [capAt, since, Nat.lt_irrefl, if_false, ok_bind, reduceCtorEq]
      rfl
    · simp only [capAt, since, Nat.lt_irrefl, if_false, ok_bind, reduceCtorEq]
      rfl
    · simp only [capAt, if_true]

theorem bump_again (e : Epoch) (b : Block) (r : Nat) :
    bump { bump { e with earned := r } b with earned := r } b = bump { e with earned := r } b := rfl

theorem accrued_self (p t : Nat) : accrued p t t = .ok 0 := by
  unfold accrued subN mul256 to128
  have h1 : (0 : Nat) < U256 := by decide +kernel
  have h2 : (0 : Nat) < U128 := by decide +kernel
  simp only [Nat.le_refl, if_true, Nat.sub_self, ok_bind, Nat.mul_zero, h1, Nat.zero_div, h2]

theorem accrued_ok {p t acc n : Nat} (h : accrued p t acc = .ok n) : acc ≤ t ∧ n = p * (t - acc) / SCALE := by
  unfold accrued at h
  obtain ⟨y, hy, h1⟩ := (bind_ok _ _ _).mp h
  obtain ⟨z, hz, h2⟩ := (bind_ok _ _ _).mp h1
  obtain ⟨h3, rfl⟩ := subN_ok hy
  have hz := mul256_ok hz; subst hz
  exact ⟨h3, (to128_ok h2).1⟩

/-- What one transaction that only updates rewards does to a distribution and a member. -/
def Once (id : Nat) (a : Addr) (b : Block) (ans : Addr → Answer) (s s' : State) : Prop :=
  (s'.dists.get id = s.dists.get id ∧ accOf s' id a = accOf s id a ∧ pendOf s' id a = pendOf s id a) ∨
  ∃ d r, s.dists.get id = some d ∧ activeEarned d.epoch b (ans d.vp).total = .ok r ∧
    s'.dists.get id = some { d with epoch := bump { d.epoch with earned := r } b } ∧
    ((accOf s' id a = accOf s id a ∧ pendOf s' id a = pendOf s id a) ∨
      ∃ n, accrued ((ans d.vp).of a) (r + d.hist) (accOf s id a) = .ok n ∧ n + pendOf s id a < U128 ∧
        accOf s' id a = r + d.hist ∧ pendOf s' id a = n + pendOf s id a)

theorem Once.trans {id : Nat} {a : Addr} {b : Block} {ans : Addr → Answer} {s s' s'' : State}
    (h : Once id a b ans s s') (h' : Once id a b ans s' s'') : Once id a b ans s s'' := by
  rcases h with ⟨h1, h2, h3⟩ | ⟨d, r, h1, h2, h3, h4⟩
  · unfold Once at h' ⊢
    rw [h1, h2, h3] at h'
    exact h'
  · rcases h' with ⟨g1, g2, g3⟩ | ⟨d', r', g1, g2, g3, g4⟩
    · right
      refine ⟨d, r, h1, h2, by rw [g1]; exact h3, ?_⟩
      rw [g2, g3]; exact h4
    · right
      rw [h3] at g1; cases g1
      rw [activeEarned_again h2] at g2; cases g2
      refine ⟨d, r, h1, h2, g3, ?_⟩
      rcases g4 with ⟨g4, g5⟩ | ⟨n, g4, g5, g6, g7⟩
      · rw [g4, g5]; exact h4
      · rcases h4 with ⟨h4, h5⟩ | ⟨m, h4, h5, h6, h7⟩
        · rw [h4] at g4
          rw [h5] at g5 g7
          exact Or.inr ⟨n, g4, g5, g6, g7⟩
        · simp only at g4 g6
          rw [h6, accrued_self] at g4
          cases g4
          rw [Nat.zero_add] at g7
          exact Or.inr ⟨m, h4, h5, g6, by rw [g7, h7]⟩

theorem Once.refl (id : Nat) (a : Addr) (b : Block) (ans : Addr → Answer) (s : State) : Once id a b ans s s :=
  Or.inl ⟨rfl, rfl, rfl⟩

theorem once_update {s s' : State} {b : Block} {ans : Addr → Answer} {q : Addr} {i : Nat} (id : Nat) (a : Addr)
    (h : updateRewards s b ans q i = .ok s') : Once id a b ans s s' := by
  unfold updateRewards at h
  obtain ⟨d, hd, h1⟩ := (bind_ok _ _ _).mp h
  obtain ⟨r, hr, h2⟩ := (bind_ok _ _ _).mp h1
  obtain ⟨t, ht, h3⟩ := (bind_ok _ _ _).mp h2
  obtain ⟨n, hn, h4⟩ := (bind_ok _ _ _).mp h3
  obtain ⟨p, hp, h5⟩ := (bind_ok _ _ _).mp h4
  have ht := add256_ok ht; subst ht
  obtain ⟨hlt, rfl⟩ := (add128_ok _ _ _).mp hp
  simp only [Except.ok.injEq] at h5
  have hd := (orErr_ok _ _ _).mp hd
  subst h5
  by_cases hi : i = id
  · subst hi
    right
    refine ⟨d, r, hd, hr, AMap.get_set_self _ _ _, ?_⟩
    by_cases hq : q = a
    · subst hq
      exact Or.inr ⟨n, hn, hlt, by unfold accOf; rw [set_same, if_pos rfl], by unfold pendOf; rw [set_same, if_pos rfl]⟩
    · left
      refine ⟨?_, ?_⟩
      · unfold accOf; rw [set_same, if_neg hq]
      · unfold pendOf; rw [set_same, if_neg hq]
  · left
    refine ⟨AMap.get_set_ne _ _ hi, set_other _ _ _ hi, set_other _ _ _ hi⟩

theorem once_ids {b : Block} {ans : Addr → Answer} {q : Addr} {ids : List Nat} (id : Nat) (a : Addr) {s s' : State}
    (h : updateIds b ans q ids s = .ok s') : Once id a b ans s s' := by
  induction ids generalizing s with
  | nil => simp only [updateIds, Except.ok.injEq] at h; subst h; exact Once.refl ..
  | cons i ids ih =>
    unfold updateIds at h
    obtain ⟨s1, h1, h2⟩ := (bind_ok _ _ _).mp h
    exact (once_update id a h1).trans (ih h2)

theorem once_members {b : Block} {ans : Addr → Answer} {ids : List Nat} {as : List Addr} (id : Nat) (a : Addr)
    {s s' : State} (h : updateMembers b ans ids as s = .ok s') : Once id a b ans s s' := by
  induction as generalizing s with
  | nil => simp only [updateMembers, Except.ok.injEq] at h; subst h; exact Once.refl ..
  | cons i ids ih =>
    unfold updateMembers at h
    obtain ⟨s1, h1, h2⟩ := (bind_ok _ _ _).mp h
    exact (once_ids id a h1).trans (ih h2)

theorem once_announce {b : Block} {ans : Addr → Answer} {as hs : List Addr} (id : Nat) (a : Addr)
    {s s' : State} (h : announce b ans as hs s = .ok s') : Once id a b ans s s' := by
  induction hs generalizing s with
  | nil => simp only [announce, Except.ok.injEq] at h; subst h; exact Once.refl ..
  | cons i ids ih =>
    unfold announce at h
    obtain ⟨s1, h1, h2⟩ := (bind_ok _ _ _).mp h
    obtain ⟨_, _, h1⟩ := execHook_ok h1
    exact (once_members id a h1).trans (ih h2)

/-- Updating rewards does not change what can be claimed in this block. -/
theorem Once.query {id : Nat} {a : Addr} {b : Block} {ans : Addr → Answer} {s s' : State}
    (h : Once id a b ans s s') : queryPending s' b ans a id = queryPending s b ans a id := by
  rcases h with ⟨h1, h2, h3⟩ | ⟨d, r, h1, h2, h3, h4⟩
  · unfold accOf at h2
    unfold pendOf at h3
    unfold queryPending
    rw [h1, h2, h3]
  · unfold queryPending
    rw [h1, h3]
    simp only [orErr, ok_bind, h2, activeEarned_again h2]
    rcases h4 with ⟨h4, h5⟩ | ⟨n, h4, h5, h6, h7⟩
    · unfold accOf at h4
      unfold pendOf at h5
      rw [h4, h5]
    · unfold accOf at h4 h6
      unfold pendOf at h5 h7
      rw [h6, h7]
      rcases hc : add256 r d.hist with e | t
      · rfl
      · have ht := add256_ok hc; subst ht
        simp only [ok_bind, accrued_self, h4]
        unfold add128
        rw [Nat.zero_add]

theorem query_congr {s : State} {b : Block} {ans ans' : Addr → Answer} {a : Addr} {id : Nat} {d : Dist}
    (hd : s.dists.get id = some d) (h1 : (ans' d.vp).total = (ans d.vp).total) (h2 : (ans' d.vp).of a = (ans d.vp).of a) :
    queryPending s b ans' a id = queryPending s b ans a id := by
  unfold queryPending
  rw [hd]
  simp only [orErr, ok_bind, h1, h2]

/-! ### What a transaction keeps -/

theorem active_congr {e e' : Epoch} {b : Block} {t : Nat} (h1 : e'.rate = e.rate) (h2 : latest e' b = latest e b)
    (h3 : e'.updated = e.updated) (h4 : e'.earned = e.earned) : activeEarned e' b t = activeEarned e b t := by
  unfold activeEarned; rw [h1, h2, h3, h4]

/-- Taking funds back leaves the reward per unit of power alone. -/
theorem withdraw_active {d d' : Dist} {b : Block} {k n t : Nat} {fresh : Prop} (hs : Shape d.epoch d.funded k b fresh)
    (h : withdrawDist d b = .ok (d', n)) :
    activeEarned d'.epoch b t = activeEarned d.epoch b t ∧ d'.hist = d.hist ∧ d'.vp = d.vp := by
  unfold withdrawDist at h
  obtain ⟨_, hne, h1⟩ := (bind_ok _ _ _).mp h
  obtain ⟨x, _, h2⟩ := (bind_ok _ _ _).mp h1
  obtain ⟨bk, _, h3⟩ := (bind_ok _ _ _).mp h2
  simp only [Except.ok.injEq, Prod.mk.injEq] at h3
  obtain ⟨rfl, _⟩ := h3
  simp only [require_ok, Bool.not_eq_true'] at hne
  refine ⟨?_, rfl, rfl⟩
  obtain ⟨rt, hrate⟩ : ∃ rt, d.epoch.rate = rt := ⟨_, rfl⟩
  rcases rt with _ | _ | ⟨amount, dur, c⟩
  · unfold activeEarned; simp only [hrate]
  · unfold activeEarned; simp only [hrate]
  · unfold Shape at hs
    simp only [hrate] at hs
    obtain ⟨_, _, _, hs⟩ := hs
    have hl : latest { d.epoch with ends := endNow b d.epoch.started } b = latest d.epoch b := by
      rcases hs with hs | ⟨s, y, u, a1, a2, a3, _⟩
      · obtain ⟨u1, u2, u3, _⟩ := hs
        unfold latest
        simp only [u1, u2, endNow]
      · unfold latest
        simp only [a1, a2, endNow_mk, capAt_mk]
        rw [a2, isExpired_mk, decide_eq_false_iff_not] at hne
        congr 1
        omega
    exact active_congr rfl hl rfl rfl

theorem transition_active {d d' : Dist} {b : Block} {t : Nat} {rate : Rate} {r r' : Nat}
    (h : transition d b t rate = .ok d') (hr : activeEarned d.epoch b t = .ok r)
    (hr' : activeEarned d'.epoch b t = .ok r') : r + d.hist ≤ r' + d'.hist := by
  unfold transition at h
  split at h
  · simp only [Except.ok.injEq] at h; subst h
    rw [hr] at hr'; cases hr'; exact Nat.le_refl _
  · rw [hr, ok_bind] at h
    obtain ⟨h0, hh, h3⟩ := (bind_ok _ _ _).mp h
    obtain ⟨_, _, h4⟩ := (bind_ok _ _ _).mp h3
    obtain ⟨_, _, h5⟩ := (bind_ok _ _ _).mp h4
    obtain ⟨_, _, h6⟩ := (bind_ok _ _ _).mp h5
    have hh := add256_ok hh; subst hh
    simp only [Except.ok.injEq] at h6; subst h6
    show _ ≤ r' + (d.hist + r)
    omega

theorem fund_active {d d' : Dist} {b : Block} {k n t r r' : Nat} {fresh : Prop} (hs : Shape d.epoch d.funded k b fresh)
    (h : fundDist d b t n = .ok d') (hr : activeEarned d.epoch b t = .ok r)
    (hr' : activeEarned d'.epoch b t = .ok r')
    (hx : ∀ amount dur, d.epoch.rate = .linear amount dur true → d.epoch.ends.isExpired b = false) :
    r + d.hist ≤ r' + d'.hist := by
  unfold fundDist at h
  rcases hrate : d.epoch.rate with _ | _ | ⟨amount, dur, c⟩
  · simp only [hrate] at h
    obtain ⟨_, _, h1⟩ := (bind_ok _ _ _).mp h
    simp only [Except.ok.injEq] at h1; subst h1
    rw [hr] at hr'; cases hr'; exact Nat.le_refl _
  · simp only [hrate] at h
    obtain ⟨_, _, h1⟩ := (bind_ok _ _ _).mp h
    obtain ⟨y, hy, h2⟩ := (bind_ok _ _ _).mp h1
    obtain ⟨rfl, _⟩ := addAtOnce_ok hy
    simp only [Except.ok.injEq] at h2; subst h2
    unfold activeEarned at hr hr'
    simp only [hrate, Except.ok.injEq] at hr hr'
    subst hr; subst hr'
    have := Nat.zero_le (n * SCALE / t)
    show d.epoch.earned + d.hist ≤ _ + d.hist
    exact Nat.add_le_add_right (Nat.le_add_right _ _) _
  · simp only [hrate] at h
    have hsync := hs.sync hr
    unfold Shape at hs
    simp only [hrate] at hs
    obtain ⟨ha, hl, hk, hs⟩ := hs
    unfold fundLinear at h
    obtain ⟨d1, h1, h2⟩ := (bind_ok _ _ _).mp h
    obtain ⟨p, hp, h3⟩ := (bind_ok _ _ _).mp h2
    obtain ⟨ends, he, h4⟩ := (bind_ok _ _ _).mp h3
    clear h h2 h3
    obtain ⟨hp, _⟩ := fundedPeriod_ok hp
    rw [hp] at he
    unfold fundLinearStart at h1
    split at h1
    · rename_i hz
      simp only [Except.ok.injEq] at h1
      simp only [hz, ne_eq, not_true_eq_false, decide_false, Bool.and_false, Bool.false_and, if_neg,
        Except.ok.injEq, Bool.false_eq_true, not_false_eq_true] at h4
      have hr0 : r = 0 := by
        obtain ⟨k', s1, _, _, _⟩ := hsync
        unfold Shape at s1
        simp only [bump, hrate] at s1
        obtain ⟨_, _, s2, s3⟩ := s1
        refine s2 ?_
        rcases s3 with s3 | s3
        · exact s3.2.2.2.2
        · have := s3.le hl
          rw [hz] at this
          rcases Nat.mul_eq_zero.1 (Nat.eq_zero_of_le_zero this) with h | h
          · exact h
          · omega
      subst h1; subst h4
      show r + d.hist ≤ r' + d.hist
      omega
    · split at h1
      · rename_i hc
        rw [hr, ok_bind] at h1
        obtain ⟨hist, hh, h6⟩ := (bind_ok _ _ _).mp h1
        have hh := add256_ok hh
        simp only [Except.ok.injEq] at h6
        simp only [Bool.and_eq_true, Bool.not_eq_true'] at hc
        simp only [hc.1, Bool.false_and, if_neg, Except.ok.injEq, Bool.false_eq_true, not_false_eq_true] at h4
        subst h6; subst h4; subst hh
        show r + d.hist ≤ r' + (d.hist + r)
        omega
      · rename_i hz hc
        obtain ⟨fn, hfn, h5⟩ := (bind_ok _ _ _).mp h1
        obtain ⟨_, rfl⟩ := (add128_ok _ _ _).mp hfn
        simp only [Except.ok.injEq] at h5
        subst h5
        rcases hs with hs | hs
        · exact absurd hs.2.2.2.1 hz
        · obtain ⟨s, y, u, a1, a2, a3, a4, a5, a6, a7, a8, a9, a10⟩ := hs
          simp only [a1] at he
          have he := add_mk he
          subst he
          have hne : d.epoch.ends.isExpired b = false := by
            cases c
            · simpa using hc
            · exact hx _ _ hrate
          simp only [hne, Bool.and_false, if_neg, Except.ok.injEq, Bool.false_eq_true, not_false_eq_true] at h4
          subst h4
          rw [a2, isExpired_mk, decide_eq_false_iff_not] at hne
          have hmono : per (len dur) d.funded amount * unit dur ≤ per (len dur) (d.funded + n) amount * unit dur :=
            Nat.mul_le_mul_right _ (per_mono _ _ (Nat.le_add_right _ _))
          have hlat : latest { d.epoch with ends := pt dur (s + per (len dur) (d.funded + n) amount * unit dur) } b =
              latest d.epoch b := by
            unfold latest
            simp only [a2, capAt_mk]
            congr 1
            omega
          have e := active_congr (e := d.epoch) (t := t)
            (e' := { d.epoch with ends := pt dur (s + per (len dur) (d.funded + n) amount * unit dur) }) rfl hlat rfl rfl
          have hr' : activeEarned { d.epoch with ends := pt dur (s + per (len dur) (d.funded + n) amount * unit dur) } b t =
            .ok r' := hr'
          rw [e, hr] at hr'; cases hr'
          exact Nat.le_refl _

theorem query_mono {s s' : State} {b b' : Block} {ans ans' : Addr → Answer} {a : Addr} {id n n' : Nat} {d d' : Dist}
    {r r' : Nat} (hd : s.dists.get id = some d) (hd' : s'.dists.get id = some d')
    (hr : activeEarned d.epoch b (ans d.vp).total = .ok r) (hr' : activeEarned d'.epoch b' (ans' d'.vp).total = .ok r')
    (hle : r + d.hist ≤ r' + d'.hist) (ho : (ans' d'.vp).of a = (ans d.vp).of a ∨ accOf s id a = r + d.hist)
    (ha : accOf s' id a = accOf s id a) (hp : pendOf s' id a = pendOf s id a)
    (h : queryPending s b ans a id = .ok n) (h' : queryPending s' b' ans' a id = .ok n') : n ≤ n' := by
  obtain ⟨d1, r1, y, g1, g2, g3, rfl⟩ := queryPending_ok h
  obtain ⟨d2, r2, z, k1, k2, k3, rfl⟩ := queryPending_ok h'
  rw [hd] at g1; cases g1
  rw [hd'] at k1; cases k1
  rw [hr] at g2; cases g2
  rw [hr'] at k2; cases k2
  obtain ⟨_, rfl⟩ := accrued_ok g3
  obtain ⟨_, rfl⟩ := accrued_ok k3
  rw [ha, hp]
  refine Nat.add_le_add_right ?_ _
  rcases ho with ho | ho
  · rw [ho]
    exact Nat.div_le_div_right (Nat.mul_le_mul_left _ (by omega))
  · rw [ho]; simp

/-- No transaction takes away what a member can claim in the block, unless the member claims it, the distribution gets
another voting contract or a continuous distribution that ran out is funded. -/
theorem kept_step {id : Nat} {a : Addr} {w w' : World} {b0 b : Block} {log : List Event} {call : Call} {out : List Pay}
    {n n' : Nat} (hdi : DI id w b0 log) (hb : b0.le b) (hs : step w b call = .ok (w', out))
    (hc : ¬ Claims id a ⟨w, b, call, out, w'⟩)
    (hsv : ∀ a coins rate vp hook o dest, call ≠ .exec a coins (.update id rate (some vp) hook o dest))
    (hrv : ¬ Revives id ⟨w, b, call, out, w'⟩)
    (h : queryPending w.c b (w.answers b) a id = .ok n) (h' : queryPending w'.c b (w'.answers b) a id = .ok n') :
    n ≤ n' := by
  obtain ⟨he, _⟩ := step_eff id hs
  obtain ⟨d0, r0, _, hd0, hr0, _, _⟩ := queryPending_ok h
  obtain ⟨d9, r9, _, hd9, hr9, _, _⟩ := queryPending_ok h'
  obtain ⟨k0, hk0⟩ := hdi d0 hd0
  have hsh := hk0.shape.mono (fresh' := True) hb (fun _ => trivial) (Or.inl trivial)
  have hans : w'.votes = w.votes → w'.answers b = w.answers b := by
    intro e; funext q; unfold World.answers; rw [vote_of e]
  have same : w'.votes = w.votes → Once id a b (w.answers b) w.c w'.c → n ≤ n' := by
    intro e ho
    rw [hans e, ho.query, h] at h'
    cases h'; exact Nat.le_refl _
  cases he with
  | quiet hd ho hr hf => exact same ho.votes (Or.inl ⟨hd, congrFun ho.acc a, congrFun ho.pend a⟩)
  | hook ids as hu hvv hf => exact same hvv (once_members id a hu)
  | change vp diffs via hcc hne hu hvv hf =>
    rw [(once_announce id a hu).query] at h'
    have e : (w'.vote d0.vp).atHeight b.height = (w.vote d0.vp).atHeight b.height := by
      rw [vote_set hvv]
      by_cases hvp : vp = d0.vp
      · rw [if_pos hvp, hvp, change_atHeight]
      · rw [if_neg hvp]
    rw [query_congr (ans := w.answers b) hd0 (by simp only [World.answers, e]) (by simp only [World.answers, e]), h] at h'
    cases h'; exact Nat.le_refl _
  | fund d d' m hd hd' hu ho hk hcc hf =>
    rw [hd0] at hd; cases hd
    rw [hd9] at hd'; cases hd'
    rw [hans ho.votes] at h' hr9
    have hvp := (fundDist_same hu).1
    refine query_mono hd0 hd9 hr0 hr9 ?_ (Or.inl (by rw [hvp])) (congrFun ho.acc a) (congrFun ho.pend a) h h'
    rw [hvp] at hr9
    refine fund_active hsh hu hr0 hr9 ?_
    intro amount dur hrate
    rcases hexp : d0.epoch.ends.isExpired b with _ | _
    · rfl
    · exact absurd ⟨d0, amount, dur, hd0, hrate, hexp, by
        unfold IsFund at hcc
        cases call with
        | exec _ _ m => cases m <;> first | exact hcc.elim | exact hcc
        | send => exact hcc
        | change => exact hcc.elim
        | transfer => exact hcc.elim⟩ hrv
  | claim q coins hcc s1 hu hs1 hvv hf =>
    have hne : q ≠ a := by
      rintro rfl
      exact hc ⟨coins, hcc⟩
    refine same hvv ?_
    refine (once_update id a hu).trans (Or.inl ⟨by rw [hs1], by rw [hs1]; rfl, ?_⟩)
    rw [hs1]
    show getD0 (AMap.set s1.pending (id, q) 0) (id, a) = _
    rw [set_same, if_neg hne]; rfl
  | withdraw q coins hcc d d' m hd hd' hu ho hk hf =>
    rw [hd0] at hd; cases hd
    rw [hd9] at hd'; cases hd'
    rw [hans ho.votes] at h' hr9
    obtain ⟨e1, e2, e3⟩ := withdraw_active (t := (w.answers b d0.vp).total) hsh hu
    refine query_mono hd0 hd9 hr0 hr9 ?_ (Or.inl (by rw [e3])) (congrFun ho.acc a) (congrFun ho.pend a) h h'
    rw [e3, e1, hr0] at hr9
    cases hr9
    rw [e2]
  | update q coins rate vp hk o dest hcc d d1 d' hd hd' hu he ho hr hf =>
    rw [hd0] at hd; cases hd
    rw [hd9] at hd'; cases hd'
    rw [hans ho.votes] at h' hr9
    have hsame := updateRate_same hu
    have hvp : d9.vp = d0.vp := by
      rw [he.2.2.2.1]
      cases vp with
      | none => exact hsame.1
      | some x => exact absurd hcc (hsv _ _ _ _ _ _ _)
    refine query_mono hd0 hd9 hr0 hr9 ?_ (Or.inl (by rw [hvp])) (congrFun ho.acc a) (congrFun ho.pend a) h h'
    rw [hvp, he.1] at hr9
    rw [he.2.2.1]
    unfold updateRate at hu
    cases rate with
    | none =>
      simp only [Except.ok.injEq] at hu; subst hu
      rw [hr0] at hr9; cases hr9; exact Nat.le_refl _
    | some rt =>
      obtain ⟨_, g1, g2⟩ := (bind_ok _ _ _).mp hu
      exact transition_active g2 hr0 hr9
  | create q coins token rate vp hk o dest hcc d1 d m hi hd hd' hval h0 hu ho hr hf =>
    rw [hd0] at hd; cases hd

theorem active_mono {e : Epoch} {b b' : Block} {k funded t r r' : Nat} {fresh : Prop} (hs : Shape e funded k b fresh)
    (hb : b.le b') (hr : activeEarned e b t = .ok r) (hr' : activeEarned e b' t = .ok r') : r ≤ r' := by
  rcases hrate : e.rate with _ | _ | ⟨amount, dur, c⟩
  · unfold activeEarned at hr hr'
    simp only [hrate, Except.ok.injEq] at hr hr'
    omega
  · unfold activeEarned at hr hr'
    simp only [hrate, Except.ok.injEq] at hr hr'
    omega
  · unfold Shape at hs
    simp only [hrate] at hs
    obtain ⟨ha, hl, hk, hs⟩ := hs
    rcases hs with hs | hs
    · obtain ⟨u1, u2, u3, u4, u5⟩ := hs
      have hl : ∀ b, latest e b = .never := by intro b; unfold latest; rw [u2]; exact u3
      unfold activeEarned at hr hr'
      simp only [hrate, hl, if_true, Except.ok.injEq] at hr hr'
      omega
    · obtain ⟨s, y, u, a1, a2, a3, _⟩ := hs
      have hlat : ∀ b, latest e b = pt dur (min (nowRaw b dur) y) := by intro b; unfold latest; rw [a2, capAt_mk]
      unfold activeEarned at hr hr'
      simp only [hrate, hlat, if_neg (mk_ne_never _ _), a3, since_mk, ok_bind] at hr hr'
      obtain ⟨g1, _, g3, g4⟩ := grow_ok hl hr
      obtain ⟨g1', _, g3', g4'⟩ := grow_ok hl hr'
      have hc : cnt dur (min (nowRaw b dur) y) ≤ cnt dur (min (nowRaw b' dur) y) := by
        refine cnt_mono dur ?_
        have := nowRaw_mono hb dur
        omega
      by_cases ht : t = 0
      · subst ht
        have e1 : ∀ (n : Nat), grow e.earned amount dur (withLen dur n) 0 = .ok e.earned := by
          intro n; unfold grow; split <;> rfl
        rw [e1] at hr hr'
        cases hr; cases hr'; exact Nat.le_refl _
      · rw [g4 ht, g4' ht]
        refine Nat.add_le_add_left (Nat.div_le_div_right (Nat.mul_le_mul_right _ (Nat.mul_le_mul_left _ ?_))) _
        exact Nat.div_le_div_right (by omega)

/-- Nor does time. -/
theorem kept_time {id : Nat} {a : Addr} {w : World} {b b' : Block} {log : List Event} {n n' : Nat}
    (hdi : DI id w b log) (hw : WInv w b) (hb : b.le b') (hh : b.height < b'.height ∨ b = b')
    (h : queryPending w.c b (w.answers b) a id = .ok n) (h' : queryPending w.c b' (w.answers b') a id = .ok n') :
    n ≤ n' := by
  rcases hh with hh | hh
  case inr => subst hh; rw [h] at h'; cases h'; exact Nat.le_refl _
  obtain ⟨d, r, _, hd, hr, _, _⟩ := queryPending_ok h
  obtain ⟨d', r', _, hd', hr', _, _⟩ := queryPending_ok h'
  rw [hd] at hd'; cases hd'
  obtain ⟨k, hk⟩ := hdi d hd
  have hv := hw.votes d.vp
  have hcur : (w.vote d.vp).atHeight b'.height = (w.vote d.vp).cur := by
    unfold Votes.atHeight; rw [if_pos (Nat.lt_of_le_of_lt hv.since hh)]
  by_cases hf : (w.vote d.vp).since < b.height
  · have hcur0 : (w.vote d.vp).atHeight b.height = (w.vote d.vp).cur := by
      unfold Votes.atHeight; rw [if_pos hf]
    refine query_mono hd hd hr hr' ?_ (Or.inl (by simp only [World.answers, hcur, hcur0])) rfl rfl h h'
    simp only [World.answers, hcur, hcur0] at hr hr'
    have := active_mono hk.shape hb hr hr'
    omega
  · obtain ⟨_, _, _, _, s4⟩ := hk.shape.sync hr
    have hre := s4 hf
    have hle : r ≤ r' := by
      obtain ⟨_, _, s2, _, _⟩ := (hk.shape.mono (fresh' := True) hb (fun _ => trivial) (Or.inl trivial)).sync hr'
      omega
    refine query_mono hd hd hr hr' (by omega) ?_ rfl rfl h h'
    rcases hk.calm with hc | hc
    · exact absurd hc hf
    · by_cases hne : getD0 (w.vote d.vp).cur a = getD0 (w.vote d.vp).start a
      · left
        simp only [World.answers, hcur]
        have : (w.vote d.vp).atHeight b.height = (w.vote d.vp).start := by
          unfold Votes.atHeight; rw [if_neg hf]
        rw [this, hne]
      · right
        rw [hre]
        exact hc a hne

/-! ### Linear distributions -/

theorem units_len (dur : Duration) : units dur = len dur := by cases dur <;> rfl

theorem ran_active {d : Dist} {b : Block} {dur : Duration} {x u : Nat} (h1 : d.epoch.ends = pt dur x)
    (h2 : d.epoch.updated = pt dur u) : ran d b = cnt dur (min (nowRaw b dur) x) - cnt dur u := by
  unfold ran
  rw [h1, h2]
  cases dur <;> rfl

theorem active_linear {d : Dist} {b : Block} {k t r amount : Nat} {dur : Duration} {c : Bool} {fresh : Prop}
    (hs : Shape d.epoch d.funded k b fresh) (hrate : d.epoch.rate = .linear amount dur c)
    (hr : activeEarned d.epoch b t = .ok r) :
    0 < len dur ∧ r = d.epoch.earned + amount * (ran d b / len dur) * SCALE / t := by
  unfold Shape at hs
  simp only [hrate] at hs
  obtain ⟨ha, hl, hk, hs⟩ := hs
  refine ⟨hl, ?_⟩
  rcases hs with hs | hs
  · obtain ⟨u1, u2, u3, u4, u5⟩ := hs
    have hl' : latest d.epoch b = .never := by unfold latest; rw [u2]; exact u3
    have hran : ran d b = 0 := by unfold ran; rw [u2, u3]
    unfold activeEarned at hr
    simp only [hrate, hl', if_true, Except.ok.injEq] at hr
    rw [hran]; simp [hr]
  · obtain ⟨s, y, u, a1, a2, a3, _⟩ := hs
    have hlat : latest d.epoch b = pt dur (min (nowRaw b dur) y) := by unfold latest; rw [a2, capAt_mk]
    unfold activeEarned at hr
    simp only [hrate, hlat, if_neg (mk_ne_never _ _), a3, since_mk, ok_bind] at hr
    rw [ran_active a2 a3]
    by_cases ht : t = 0
    · subst ht
      have e1 : ∀ (n : Nat), grow d.epoch.earned amount dur (withLen dur n) 0 = .ok d.epoch.earned := by
        intro n; unfold grow; split <;> rfl
      rw [e1] at hr
      cases hr
      simp
    · exact (grow_ok hl hr).2.2.2 ht

/-- The time a distribution has run adds up over an update. -/
theorem ran_bump {d : Dist} {b b' : Block} {k r amount : Nat} {dur : Duration} {c : Bool} {fresh : Prop}
    (hs : Shape d.epoch d.funded k b fresh) (hrate : d.epoch.rate = .linear amount dur c) (hb : b.le b') :
    ran { d with epoch := bump { d.epoch with earned := r } b } b' + ran d b = ran d b' := by
  unfold Shape at hs
  simp only [hrate] at hs
  obtain ⟨ha, hl, hk, hs⟩ := hs
  rcases hs with hs | hs
  · obtain ⟨u1, u2, u3, u4, u5⟩ := hs
    simp only [ran, bump, u2, u3, capAt]
  · obtain ⟨s, y, u, a1, a2, a3, a4, a5, a6, _⟩ := hs
    rw [ran_active (d := { d with epoch := bump { d.epoch with earned := r } b }) (dur := dur) (x := y)
      (u := min (nowRaw b dur) y) a2 (by simp only [bump, a2, capAt_mk]), ran_active a2 a3, ran_active a2 a3]
    have h1 := nowRaw_mono hb dur
    have h2 : cnt dur (min (nowRaw b dur) y) ≤ cnt dur (min (nowRaw b' dur) y) := cnt_mono dur (by omega)
    have h3 : cnt dur u ≤ cnt dur (min (nowRaw b dur) y) := cnt_mono dur (by omega)
    omega

/-- What `queryPending` answers for a linear distribution. -/
theorem query_linear {w : World} {b : Block} {a : Addr} {id n k amount : Nat} {d : Dist} {dur : Duration} {c : Bool}
    {fresh : Prop} (hd : w.c.dists.get id = some d) (hs : Shape d.epoch d.funded k b fresh)
    (hrate : d.epoch.rate = .linear amount dur c) (hf : (w.vote d.vp).since < b.height)
    (h : queryPending w.c b (w.answers b) a id = .ok n) :
    accOf w.c id a ≤ d.epoch.earned + d.hist + amount * (ran d b / len dur) * SCALE / total (w.vote d.vp).cur ∧
    n = getD0 (w.vote d.vp).cur a * (d.epoch.earned + d.hist +
      amount * (ran d b / len dur) * SCALE / total (w.vote d.vp).cur - accOf w.c id a) / SCALE + pendOf w.c id a := by
  obtain ⟨d1, r, y, g1, g2, g3, rfl⟩ := queryPending_ok h
  rw [hd] at g1; cases g1
  simp only [World.answers, atHeight_fresh hf] at g2 g3
  obtain ⟨_, rfl⟩ := active_linear hs hrate g2
  obtain ⟨g4, rfl⟩ := accrued_ok g3
  have e : ∀ x : Nat, d.epoch.earned + x + d.hist = d.epoch.earned + d.hist + x := by intro x; omega
  rw [e] at g4 ⊢
  exact ⟨g4, rfl⟩

/-- The arithmetic of shares. -/
theorem share_bounds {P T S A1 A2 E acc pend n1 n2 : Nat} (hP : P < S) (hT : 0 < T) (hS : 0 < S) (hA : A1 ≤ A2)
    (ha : acc ≤ E + A1 * S / T)
    (h1 : n1 = P * (E + A1 * S / T - acc) / S + pend) (h2 : n2 = P * (E + A2 * S / T - acc) / S + pend) :
    n2 ≤ n1 + P * (A2 - A1) / T + 2 ∧ n1 + P * (A2 - A1) / T ≤ n2 + 1 := by
  subst h1; subst h2
  obtain ⟨D, rfl⟩ := Nat.exists_eq_add_of_le hA
  rw [Nat.add_sub_cancel_left]
  generalize hX : A1 * S / T = X at *
  generalize hY : (A1 + D) * S / T = Y at *
  generalize hQ : P * D / T = Q
  have x1 : X * T ≤ A1 * S := by rw [← hX]; exact Nat.div_mul_le_self _ _
  have x2 : A1 * S < (X + 1) * T := by rw [← hX]; exact Nat.lt_mul_of_div_lt (Nat.lt_succ_self _) hT
  have y1 : Y * T ≤ (A1 + D) * S := by rw [← hY]; exact Nat.div_mul_le_self _ _
  have y2 : (A1 + D) * S < (Y + 1) * T := by rw [← hY]; exact Nat.lt_mul_of_div_lt (Nat.lt_succ_self _) hT
  have q1 : Q * T ≤ P * D := by rw [← hQ]; exact Nat.div_mul_le_self _ _
  have q2 : P * D < (Q + 1) * T := by rw [← hQ]; exact Nat.lt_mul_of_div_lt (Nat.lt_succ_self _) hT
  have hXY : X ≤ Y := by
    rw [← hX, ← hY]; exact Nat.div_le_div_right (Nat.mul_le_mul_right _ (Nat.le_add_right _ _))
  obtain ⟨G, rfl⟩ := Nat.exists_eq_add_of_le hXY
  -- `G` is what a unit of power gains
  have g1 : G * T < D * S + T := by
    have e1 : (X + G) * T = X * T + G * T := Nat.add_mul _ _ _
    have e2 : (A1 + D) * S = A1 * S + D * S := Nat.add_mul _ _ _
    have e3 : (X + 1) * T = X * T + T := by rw [Nat.add_mul, Nat.one_mul]
    omega
  have g2 : D * S < G * T + T := by
    have e1 : (X + G + 1) * T = X * T + G * T + T := by rw [Nat.add_mul, Nat.add_mul, Nat.one_mul]
    have e2 : (A1 + D) * S = A1 * S + D * S := Nat.add_mul _ _ _
    omega
  have e : P * (E + (X + G) - acc) = P * (E + X - acc) + P * G := by
    rw [← Nat.mul_add]; congr 1; omega
  rw [e]
  generalize P * (E + X - acc) = Z
  generalize hR : P * G / S = R
  have r1 : R * S ≤ P * G := by rw [← hR]; exact Nat.div_mul_le_self _ _
  have r2 : P * G < (R + 1) * S := by rw [← hR]; exact Nat.lt_mul_of_div_lt (Nat.lt_succ_self _) hS
  have z1 : Z / S + R ≤ (Z + P * G) / S := by
    rw [Nat.le_div_iff_mul_le hS, Nat.add_mul]
    have := Nat.div_mul_le_self Z S
    omega
  have z2 : (Z + P * G) / S ≤ Z / S + R + 1 := by
    rw [← Nat.lt_succ_iff, Nat.div_lt_iff_lt_mul hS]
    have h3 : Z < (Z / S + 1) * S := Nat.lt_mul_of_div_lt (Nat.lt_succ_self _) hS
    have e1 : (Z / S + R + 1).succ * S = (Z / S + 1) * S + (R + 1) * S := by
      rw [← Nat.add_mul]; congr 1; omega
    omega
  -- between the share and what is gained
  have s1 : R ≤ Q + 1 := by
    by_contra hc
    have hc : Q + 2 ≤ R := by omega
    have k1 : (Q + 2) * S ≤ P * G := Nat.le_trans (Nat.mul_le_mul_right _ hc) r1
    have k2 : (Q + 2) * S * T ≤ P * G * T := Nat.mul_le_mul_right _ k1
    have k3 : P * (G * T) ≤ P * (D * S + T) := Nat.mul_le_mul_left _ (Nat.le_of_lt g1)
    have k4 : P * D * S < (Q + 1) * T * S := Nat.mul_lt_mul_of_pos_right q2 hS
    have k5 : P * T ≤ S * T := Nat.mul_le_mul_right _ (Nat.le_of_lt hP)
    have e1 : (Q + 2) * S * T = (Q + 1) * T * S + S * T := by
      rw [show Q + 2 = (Q + 1) + 1 from rfl, Nat.add_mul, Nat.add_mul, Nat.one_mul, Nat.mul_right_comm]
    have e2 : P * (D * S + T) = P * D * S + P * T := by rw [Nat.mul_add, Nat.mul_assoc]
    rw [Nat.mul_assoc P G T] at k2
    omega
  have s2 : Q ≤ R + 1 := by
    by_contra hc
    have hc : R + 2 ≤ Q := by omega
    have k1 : (R + 2) * T ≤ P * D := Nat.le_trans (Nat.mul_le_mul_right _ hc) q1
    have k2 : (R + 2) * T * S ≤ P * D * S := Nat.mul_le_mul_right _ k1
    have k3 : P * (D * S) ≤ P * (G * T + T) := Nat.mul_le_mul_left _ (Nat.le_of_lt g2)
    have k4 : P * G * T < (R + 1) * S * T := Nat.mul_lt_mul_of_pos_right r2 hT
    have k5 : P * T ≤ S * T := Nat.mul_le_mul_right _ (Nat.le_of_lt hP)
    have e1 : (R + 2) * T * S = (R + 1) * S * T + S * T := by
      rw [show R + 2 = (R + 1) + 1 from rfl, Nat.add_mul, Nat.add_mul, Nat.one_mul, Nat.mul_right_comm, Nat.mul_comm T S]
    have e2 : P * (G * T + T) = P * G * T + P * T := by rw [Nat.mul_add, Nat.mul_assoc]
    rw [Nat.mul_assoc P D S] at k2
    omega
  constructor <;> omega

/-! ### The schedule of updates -/

/-- How a distribution and a member compare with an earlier state, after updates only: `M` periods were handed out in
`j` transactions; `exact` says that updates fell on whole periods. -/
def Seg (id : Nat) (a : Addr) (w0 : World) (d0 : Dist) (amount L P T : Nat) (exact' : Prop) (j : Nat) (w : World)
    (b : Block) : Prop :=
  ∃ d M, w.c.dists.get id = some d ∧ d.vp = d0.vp ∧ d.hist = d0.hist ∧ d.epoch.rate = d0.epoch.rate ∧
    w.vote d0.vp = w0.vote d0.vp ∧
    (∀ b', b.le b' → M * L + ran d b' ≤ ran d0 b' ∧ (exact' → ran d0 b' = M * L + ran d b')) ∧
    d0.epoch.earned ≤ d.epoch.earned ∧ T * (d.epoch.earned - d0.epoch.earned) ≤ amount * M * SCALE ∧
    (exact' → amount * M * SCALE ≤ T * (d.epoch.earned - d0.epoch.earned) + T * j) ∧
    accOf w0.c id a ≤ accOf w.c id a ∧
    (∀ E, accOf w.c id a ≤ E →
      pendOf w.c id a * SCALE + P * (E - accOf w.c id a) ≤ pendOf w0.c id a * SCALE + P * (E - accOf w0.c id a) ∧
      pendOf w0.c id a * SCALE + P * (E - accOf w0.c id a) ≤
        pendOf w.c id a * SCALE + P * (E - accOf w.c id a) + SCALE * j)

theorem Seg.step {id : Nat} {a : Addr} {w0 w w' : World} {d0 : Dist} {amount P T j : Nat} {dur : Duration} {c : Bool}
    {exact' : Prop} {b b' : Block} {fresh : Prop} {k : Nat} {d : Dist} (hd : w.c.dists.get id = some d)
    (h : Seg id a w0 d0 amount (len dur) P T exact' j w b) (hrate : d0.epoch.rate = .linear amount dur c) (hb : b.le b')
    (hs : Shape d.epoch d.funded k b' fresh) (hf : (w0.vote d0.vp).since < b'.height) (hT : 0 < T)
    (hPT : P = getD0 (w0.vote d0.vp).cur a ∧ T = total (w0.vote d0.vp).cur)
    (ho : Once id a b' (w.answers b') w.c w'.c) (hv : w'.vote d0.vp = w.vote d0.vp)
    (hx : exact' → w'.c.dists.get id ≠ w.c.dists.get id → len dur ∣ ran d b') :
    Seg id a w0 d0 amount (len dur) P T exact' (j + 1) w' b' := by
  obtain ⟨d1, M, h1, h2, h3, h4, h5, h6, h7, h8, h9, h10, h11⟩ := h
  rw [hd] at h1; cases h1
  have hrd := h4.trans hrate
  rcases ho with ⟨o1, o2, o3⟩ | ⟨d1, r, o1, o2, o3, o4⟩
  · refine ⟨d, M, o1.trans hd, h2, h3, h4, hv.trans h5, fun b'' hb'' => h6 b'' (Block.le_trans hb hb''), h7, h8, ?_, ?_, ?_⟩
    · intro he; have := h9 he; rw [Nat.mul_add]; omega
    · rw [o2]; exact h10
    · rw [o2, o3]
      intro E hE
      obtain ⟨g1, g2⟩ := h11 E hE
      exact ⟨g1, by rw [Nat.mul_add]; omega⟩
  · rw [hd] at o1; cases o1
    have hpt : (w.answers b' d.vp).total = T ∧ (w.answers b' d.vp).of a = P := by
      unfold World.answers
      simp only
      rw [h2, h5, atHeight_fresh hf]
      exact ⟨hPT.2.symm, hPT.1.symm⟩
    rw [hpt.1] at o2
    rw [hpt.2] at o4
    obtain ⟨hl, hr⟩ := active_linear hs hrd o2
    generalize hN : ran d b' / len dur = N at hr
    generalize hG : amount * N * SCALE / T = G at hr
    have g1 : G * T ≤ amount * N * SCALE := by rw [← hG]; exact Nat.div_mul_le_self _ _
    have g2 : amount * N * SCALE < (G + 1) * T := by rw [← hG]; exact Nat.lt_mul_of_div_lt (Nat.lt_succ_self _) hT
    have hNL : N * len dur ≤ ran d b' := by rw [← hN]; exact Nat.div_mul_le_self _ _
    have eT : T * (r - d0.epoch.earned) = T * (d.epoch.earned - d0.epoch.earned) + G * T := by
      rw [hr, Nat.mul_comm G T, ← Nat.mul_add]; congr 1; omega
    have eM : amount * (M + N) * SCALE = amount * M * SCALE + amount * N * SCALE := by rw [Nat.mul_add, Nat.add_mul]
    refine ⟨_, M + N, o3, h2, h3, h4, hv.trans h5, ?_, ?_, ?_, ?_, ?_, ?_⟩
    · intro b'' hb''
      have hbump := ran_bump (r := r) hs hrd hb''
      obtain ⟨i1, i2⟩ := h6 b'' (Block.le_trans hb hb'')
      rw [Nat.add_mul]
      refine ⟨by omega, ?_⟩
      intro he
      have := i2 he
      by_cases hch : w'.c.dists.get id = w.c.dists.get id
      · -- nothing changed, so nothing has run
        have e : d = { d with epoch := bump { d.epoch with earned := r } b' } := by
          rw [o3, hd] at hch; exact (Option.some.inj hch).symm
        rw [← e] at hbump ⊢
        have : ran d b' = 0 := by omega
        rw [this] at hNL
        omega
      · have := Nat.div_mul_cancel (hx he hch)
        rw [hN] at this
        omega
    · show d0.epoch.earned ≤ r
      omega
    · show T * (r - d0.epoch.earned) ≤ _
      rw [eT, eM]; omega
    · intro he
      show _ ≤ T * (r - d0.epoch.earned) + _
      have := h9 he
      rw [eT, eM, Nat.mul_add]
      rw [Nat.add_mul, Nat.one_mul] at g2
      omega
    · rcases o4 with ⟨o4, _⟩ | ⟨n, o4, _, o6, _⟩
      · rw [o4]; exact h10
      · obtain ⟨q1, _⟩ := accrued_ok o4
        rw [o6]; omega
    · intro E hE
      rcases o4 with ⟨o4, o5⟩ | ⟨n, o4, _, o6, o7⟩
      · rw [o4, o5]
        rw [o4] at hE
        obtain ⟨g1, g2⟩ := h11 E hE
        exact ⟨g1, by rw [Nat.mul_add]; omega⟩
      · obtain ⟨q1, q2⟩ := accrued_ok o4
        rw [o6] at hE ⊢
        rw [o7]
        obtain ⟨g1, g2⟩ := h11 E (by omega)
        generalize hZ : r + d.hist = Z at *
        have z1 : n * SCALE ≤ P * (Z - accOf w.c id a) := by rw [q2]; exact Nat.div_mul_le_self _ _
        have z2 : P * (Z - accOf w.c id a) < (n + 1) * SCALE := by
          rw [q2]; exact Nat.lt_mul_of_div_lt (Nat.lt_succ_self _) SCALE_pos
        have e1 : P * (E - accOf w.c id a) = P * (Z - accOf w.c id a) + P * (E - Z) := by
          rw [← Nat.mul_add]; congr 1; omega
        rw [Nat.add_mul, Nat.one_mul] at z2
        rw [e1] at g1 g2
        rw [Nat.add_mul, Nat.mul_add]
        constructor <;> omega

/-- A transaction that leaves a distribution alone only updates rewards. -/
theorem leaves_once {id : Nat} {a : Addr} {w w' : World} {b : Block} {call : Call} {out : List Pay} {d : Dist}
    (hs : step w b call = .ok (w', out)) (hl : Leaves id a ⟨w, b, call, out, w'⟩) (hd : w.c.dists.get id = some d) :
    Once id a b (w.answers b) w.c w'.c ∧ w'.vote d.vp = w.vote d.vp := by
  obtain ⟨he, _⟩ := step_eff id hs
  cases he with
  | quiet hd ho hr hf => exact ⟨Or.inl ⟨hd, congrFun ho.acc a, congrFun ho.pend a⟩, vote_of ho.votes _⟩
  | hook ids as hu hvv hf => exact ⟨once_members id a hu, vote_of hvv _⟩
  | change vp diffs via hcc hne hu hvv hf =>
    subst hcc
    have hne : d.vp ≠ vp := hl d hd
    have hv : w'.vote d.vp = w.vote d.vp := by rw [vote_set hvv, if_neg (Ne.symm hne)]
    refine ⟨?_, hv⟩
    have key : ∀ s', Once id a b (w'.answers b) w.c s' → Once id a b (w.answers b) w.c s' := by
      intro s' h
      rcases h with h | ⟨d1, r, h1, h2, h3, h4⟩
      · exact Or.inl h
      · rw [hd] at h1; cases h1
        have e : w'.answers b d.vp = w.answers b d.vp := by unfold World.answers; rw [hv]
        rw [e] at h2 h4
        exact Or.inr ⟨d, r, hd, h2, h3, h4⟩
    exact key _ (once_announce id a hu)
  | fund d d' m hd hd' hu ho hk hcc hf =>
    exfalso
    unfold IsFund at hcc
    unfold Leaves at hl
    cases call with
    | exec _ _ m => cases m <;> first | exact hcc.elim | exact hl hcc
    | send => exact hl hcc
    | change => exact hcc.elim
    | transfer => exact hcc.elim
  | claim q coins hcc s1 hu hs1 hvv hf =>
    subst hcc
    have hne : q ≠ a := by
      rintro rfl
      exact hl ⟨rfl, rfl⟩
    refine ⟨(once_update id a hu).trans (Or.inl ⟨by rw [hs1], by rw [hs1]; rfl, ?_⟩), vote_of hvv _⟩
    rw [hs1]
    show getD0 (AMap.set s1.pending (id, q) 0) (id, a) = _
    rw [set_same, if_neg hne]; rfl
  | withdraw q coins hcc d d' m hd hd' hu ho hk hf => subst hcc; exact absurd rfl hl
  | update q coins rate vp hk o dest hcc d d1 d' hd hd' hu he ho hr hf => subst hcc; exact absurd rfl hl
  | create q coins token rate vp hk o dest hcc d1 d m hi hd0 hd' hval h0 hu ho hr hf =>
    rw [hd] at hd0; cases hd0

/-- The end of the comparison. -/
theorem seg_bounds {P T S A0 A N M E0 E acc0 acc pend0 pend n n' j : Nat} (hT : 0 < T) (hS : 0 < S)
    (hE : E0 ≤ E) (hAN : A0 = A * (M + N) ∨ A * (M + N) ≤ A0) (h8 : T * (E - E0) ≤ A * M * S)
    (hacc : acc ≤ E + A * N * S / T)
    (h11 : ∀ X, acc ≤ X → pend * S + P * (X - acc) ≤ pend0 * S + P * (X - acc0) ∧
      pend0 * S + P * (X - acc0) ≤ pend * S + P * (X - acc) + S * j)
    (hn : n = P * (E0 + A0 * S / T - acc0) / S + pend0) (hn' : n' = P * (E + A * N * S / T - acc) / S + pend) :
    n' ≤ n ∧ (A0 = A * (M + N) → A * M * S ≤ T * (E - E0) + T * j → P < S → n ≤ n' + 2 * j) := by
  have hle : A * (M + N) ≤ A0 := by omega
  generalize hG : A * N * S / T = G at *
  generalize hG0 : A0 * S / T = G0 at *
  have g1 : G * T ≤ A * N * S := by rw [← hG]; exact Nat.div_mul_le_self _ _
  have g2 : A * N * S < (G + 1) * T := by rw [← hG]; exact Nat.lt_mul_of_div_lt (Nat.lt_succ_self _) hT
  have k1 : G0 * T ≤ A0 * S := by rw [← hG0]; exact Nat.div_mul_le_self _ _
  have k2 : A0 * S < (G0 + 1) * T := by rw [← hG0]; exact Nat.lt_mul_of_div_lt (Nat.lt_succ_self _) hT
  have hsp : A * (M + N) * S = A * M * S + A * N * S := by rw [Nat.mul_add, Nat.add_mul]
  have hle' : A * M * S + A * N * S ≤ A0 * S := by rw [← hsp]; exact Nat.mul_le_mul_right _ hle
  -- the reward per unit of power is not larger
  have hEE : E + G ≤ E0 + G0 := by
    by_contra hc
    have hc : G0 + 1 ≤ (E - E0) + G := by omega
    have := Nat.mul_le_mul_right T hc
    rw [Nat.add_mul (E - E0) G T, Nat.mul_comm (E - E0) T] at this
    omega
  obtain ⟨i1, i2⟩ := h11 (E + G) hacc
  subst hn; subst hn'
  have p1 := Nat.mul_le_mul_left P (show E + G - acc0 ≤ E0 + G0 - acc0 by omega)
  refine ⟨?_, ?_⟩
  · rw [← Nat.lt_succ_iff, Nat.succ_eq_add_one]
    have q1 := Nat.div_mul_le_self (P * (E + G - acc)) S
    have q2 : P * (E0 + G0 - acc0) < (P * (E0 + G0 - acc0) / S + 1) * S := Nat.lt_mul_of_div_lt (Nat.lt_succ_self _) hS
    generalize P * (E + G - acc) / S = u at *
    generalize P * (E0 + G0 - acc0) / S = v at *
    have : (u + pend) * S < (v + pend0 + 1) * S := by
      have e1 : (u + pend) * S = u * S + pend * S := Nat.add_mul _ _ _
      have e2 : (v + pend0 + 1) * S = (v + 1) * S + pend0 * S := by rw [← Nat.add_mul]; congr 1; omega
      omega
    exact Nat.lt_of_mul_lt_mul_right this
  · intro hA0 hj hP
    subst hA0
    -- nor is it much smaller
    have hEj : E0 + G0 ≤ E + G + j := by
      by_contra hc
      have hc : (E - E0) + G + 1 + j ≤ G0 := by omega
      have := Nat.mul_le_mul_right T hc
      rw [Nat.add_mul _ j T, Nat.add_assoc (E - E0) G 1, Nat.add_mul (E - E0) _ T, Nat.mul_comm (E - E0) T,
        Nat.mul_comm j T] at this
      omega
    have p2 : P * (E0 + G0 - acc0) ≤ P * (E + G - acc0) + P * j := by
      rw [← Nat.mul_add]; exact Nat.mul_le_mul_left _ (by omega)
    have p3 : P * j ≤ S * j := Nat.mul_le_mul_right _ (Nat.le_of_lt hP)
    have q1 : P * (E + G - acc) < (P * (E + G - acc) / S + 1) * S := Nat.lt_mul_of_div_lt (Nat.lt_succ_self _) hS
    have q2 := Nat.div_mul_le_self (P * (E0 + G0 - acc0)) S
    generalize P * (E + G - acc) / S = u at *
    generalize P * (E0 + G0 - acc0) / S = v at *
    have : (v + pend0) * S < (u + pend + 2 * j + 1) * S := by
      have e1 : (v + pend0) * S = v * S + pend0 * S := Nat.add_mul _ _ _
      have e2 : (u + pend + 2 * j + 1) * S = (u + 1) * S + pend * S + (S * j + S * j) := by
        rw [show u + pend + 2 * j + 1 = (u + 1) + pend + (j + j) by omega, Nat.add_mul, Nat.add_mul, Nat.add_mul j j,
          Nat.mul_comm j S]
      omega
    have := Nat.lt_of_mul_lt_mul_right this
    omega

end Verif.DaoRewards
