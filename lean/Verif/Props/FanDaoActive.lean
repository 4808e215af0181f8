import Verif.Props.FanDao
/-!
# C115: whether the holders of a fan token can make their DAO active
-/

namespace Verif.FanDao
open Verif Verif.Spec.FanDao
open Verif.Spec.FanToken (listed share minted)
open Verif.Spec.TokenDao (Lasting Sensible Met)

/-- Who makes a transaction of the voting module and its ledger, if it is not a mint. -/
def maker : TokenStaked.Call → Option Addr
  | .exec s _ => some s
  | .stake s _ => some s
  | .transfer s _ _ => some s
  | .mint _ _ => none
  | .burn s _ => some s

/-- What others do takes no coins from anybody, and changes no settings of their DAO. -/
theorem calm {w w' : TokenStaked.World} {b : Block} {call : TokenStaked.Call} {out : TokenStaked.Out}
    (hs : TokenStaked.step w b call = .ok (w', out)) {q : Addr} (hq : q ≠ w.self) (hn : maker call ≠ some q) :
    getD0 w.ledger q ≤ getD0 w'.ledger q ∧
      (w.c.dao = q → w'.c.dao = q ∧ w'.c.threshold = w.c.threshold ∧ w'.c.unstakingDuration = w.c.unstakingDuration) := by
  have ne : ∀ a, some a ≠ some q → q ≠ a := fun a h hh => h (by rw [hh])
  cases TokenStaked.step_effect hs with
  | stake a n l ha h1 hl =>
    have := Ledger.move_other hl (ne _ hn)
    exact ⟨by simp only; omega, fun h => ⟨h, rfl, rfl⟩⟩
  | payout a n l _ ha h1 h2 h3 h4 hl h5 =>
    have := Ledger.move_other hl hq
    exact ⟨by simp only; omega, fun h => ⟨h, rfl, rfl⟩⟩
  | unbond => exact ⟨Nat.le_refl _, fun h => ⟨h, rfl, rfl⟩⟩
  | claim a n c l ha hc h1 hl =>
    have := Ledger.move_other hl hq
    exact ⟨by simp only; omega, fun h => ⟨h, rfl, rfl⟩⟩
  | admin m c hsm hm => exact ⟨Nat.le_refl _, fun h => absurd (by rw [h]; rfl) hn⟩
  | transfer a x n l ha hl =>
    have := Ledger.move_other hl (ne _ hn)
    exact ⟨by simp only; omega, fun h => ⟨h, rfl, rfl⟩⟩
  | mint x n l _ hl =>
    have := Ledger.credit_get hl q
    refine ⟨?_, fun h => ⟨h, rfl, rfl⟩⟩
    simp only
    by_cases hx : x = q
    · subst hx; rw [this, if_pos rfl]; omega
    · rw [this, if_neg hx]
  | burn a n l ha hl =>
    have := Ledger.debit_get hl q
    refine ⟨?_, fun h => ⟨h, rfl, rfl⟩⟩
    simp only
    rw [this, if_neg (Ne.symm (ne _ hn))]

variable {c : FanToken.World} {b0 b b' : Block} {dao self : Addr} {d : Option Duration}
  {th : Option Active.ActiveThreshold} {denom : Nat} {t : FanToken.NewToken} {w0 w : World} {log : List Event}
  {clog : List Spec.FanToken.Event}

/-- As long as the DAO does nothing, its settings stay, its coins do not get fewer, and all coins do not get more. -/
theorem idle_run (hM : Made c dao self d th denom t w0) (hm : t.max < U128) (hne : dao ≠ self)
    (hr : sys.Run w0 b0 log w b) (hi : Idle dao log) :
    w.vm.dao = dao ∧ w.vm.threshold = th ∧ w.vm.unstakingDuration = d ∧ holds w0 dao ≤ holds w dao ∧
      minter w = some dao ∧ inCirculation w ≤ minted t := by
  have h0 := hM.inv hm
  induction hr with
  | refl =>
    refine ⟨hM.daoIs, hM.threshold, hM.duration, Nat.le_refl _, ?_, ?_⟩
    · unfold minter; rw [hM.den, hM.token]; rfl
    · unfold inCirculation; rw [hM.den, hM.supply]
  | @step w1 w2 b1 l env call out hr hb hs ih =>
    obtain ⟨i1, i2, i3, i4, i5, i6⟩ := ih (fun e he => hi e (List.mem_cons_of_mem _ he))
    have hsend : env.sender ≠ dao := hi _ List.mem_cons_self
    obtain ⟨j1, j2, j3, _⟩ := run_proj h0 hr
    obtain ⟨k1, k2, k3, _, _, k⟩ := inv_step j1 hs
    obtain ⟨t1, a1, _, _⟩ := j1.token
    obtain ⟨t2, c1, _, _⟩ := k1.token
    have hmin : t1.minter = dao := by unfold minter at i5; rw [a1] at i5; simpa using i5
    have e1 : inCirculation w1 = t1.supply := by unfold inCirculation; rw [j1.tally, a1]
    have e2 : inCirculation w2 = t2.supply := by unfold inCirculation; rw [k1.tally, c1]
    have hm2 : t2.minter = t1.minter := by
      by_contra hx
      exact hsend (((k t1 t2 a1 c1).2 hx).2.1.trans hmin)
    have hs2 : ¬ t1.supply < t2.supply := fun hx => hsend (((k t1 t2 a1 c1).1 hx).2.1.trans hmin)
    refine (fun (x : w2.vm.dao = dao ∧ w2.vm.threshold = th ∧ w2.vm.unstakingDuration = d ∧ holds w0 dao ≤ holds w2 dao) =>
      ⟨x.1, x.2.1, x.2.2.1, x.2.2.2, by unfold minter; rw [c1, ← hmin, ← hm2]; rfl, by omega⟩) ?_
    have hself : dao ≠ (proj w1).self := by
      show dao ≠ w1.self
      rw [j3, hM.addr]; exact hne
    have fin : ∀ call' out', TokenStaked.step (proj w1) env.block call' = .ok (proj w2, out') → maker call' ≠ some dao →
        w2.vm.dao = dao ∧ w2.vm.threshold = th ∧ w2.vm.unstakingDuration = d ∧ holds w0 dao ≤ holds w2 dao := by
      intro call' out' h1 h2
      obtain ⟨g1, g2⟩ := calm h1 hself h2
      obtain ⟨g3, g4, g5⟩ := g2 i1
      simp only [proj, ledgerOf_get] at g1
      exact ⟨g3, g4.trans i2, g5.trans i3, Nat.le_trans i4 g1⟩
    have hs' : some env.sender ≠ some dao := fun h => hsend (Option.some.inj h)
    cases seen j1 hs with
    | apart c h =>
      have hv : w2.vm = w1.vm := congrArg TokenStaked.World.c h
      have hh : holds w2 dao = holds w1 dao := by rw [holds_proj rfl, h, ← holds_proj rfl]
      rw [hv, hh]
      exact ⟨i1, i2, i3, i4⟩
    | transfer _ _ h => exact fin _ _ h hs'
    | mint _ _ h => exact fin _ _ h (by simp [maker])
    | burn _ h => exact fin _ _ h hs'
    | vm _ _ h => exact fin _ _ h hs'
    | stake _ _ h => exact fin _ _ h hs'

/-- Burning helps nobody: a part of fewer coins that meets a percentage leaves, with the burned coins back, a part that
meets it too. -/
theorem met_burn {th : Option Active.ActiveThreshold} {n : Nat} (hs : Sensible th n) {staked all own all0 : Nat}
    (h1 : staked + own ≤ all) (h2 : all ≤ all0) (h : Met th staked all) : Met th (all0 - own) all0 := by
  cases th with
  | none => trivial
  | some x =>
    cases x with
    | absolute k => simp only [Met] at *; omega
    | percentage p =>
      simp only [Met] at *
      have hp := hs.2
      rw [DEC_ONE_eq] at hp
      obtain ⟨k, rfl⟩ := Nat.exists_eq_add_of_le h2
      have h3 := Nat.mul_le_mul_right k hp
      have h4 : p * (all + k) = p * all + p * k := Nat.mul_add ..
      rw [h4]
      generalize p * all = x at *
      generalize p * k = y at *
      omega

/-- **C115.** As long as the DAO does nothing, no more can be staked than the coins that were made for others. -/
theorem C115_ceiling (hm : t.max < U128) (hne : dao ≠ self) (hc : FanToken.sys.Reach c b' clog)
    (h : create c b0 dao self d th denom t = .ok w0) (hr : sys.Run w0 b0 log w b) (hi : Idle dao log) :
    w.vm.total + share t dao dao ≤ inCirculation w ∧ inCirculation w ≤ minted t := by
  have hM := create_forward hc h
  obtain ⟨_, _, _, i4, _, i6⟩ := idle_run hM hm hne hr hi
  obtain ⟨j1, _, j3, b1, l1, _, j5⟩ := run_proj (hM.inv hm) hr
  have hcov := TokenStaked.C31_covered ⟨b0, _, hM.init hm b0, j5⟩
  have h2 : getD0 (ledgerOf w.denom w.chain.bal) w.self + getD0 (ledgerOf w.denom w.chain.bal) dao ≤
      Verif.total (ledgerOf w.denom w.chain.bal) := by
    rw [total_eq, ← at_val, ← at_val]
    exact AMap.at_add_at_le_sum _ _ (by rw [j3, hM.addr]; exact Ne.symm hne)
  have h3 : holds w0 dao = share t dao dao := by unfold holds; rw [hM.den]; exact hM.bal dao
  simp only [Spec.TokenStaked.coins, proj] at hcov
  simp only [holds, inCirculation, FanDao.supply, ledgerOf_get] at *
  omega

/-- What the module answers. -/
theorem active_of (hM : Made c dao self d th denom t w0) (hm : t.max < U128) (hne : dao ≠ self)
    (hr : sys.Run w0 b0 log w b) (hi : Idle dao log) :
    ∃ r, active w = .ok r ∧ (r = true ↔ Met th w.vm.total (inCirculation w)) ∧
      Sensible th (forOthers dao t.initial) := by
  obtain ⟨_, i2, _, _, _, i6⟩ := idle_run hM hm hne hr hi
  have hs : Sensible th (forOthers dao t.initial) := by
    obtain ⟨f1, f2, _⟩ := fresh_vm hM.inst
    have hrp := hM.reply
    have hmo := minted_others dao t
    simp only [TokenStaked.replyFactory, bind_ok, sub128_ok, require_ok, decide_eq_true_eq] at hrp
    obtain ⟨n, ⟨_, rfl⟩, _, h2, _⟩ := hrp
    rw [hM.threshold, show minted t - share t dao dao = forOthers dao t.initial by omega] at h2
    exact (checks.1 ⟨f1, f2, h2⟩).2
  have hle := hM.le
  obtain ⟨r, h1, h2⟩ := TokenDao.active_iff (staked := w.vm.total) (all := inCirculation w) hs (by omega)
  exact ⟨r, by unfold active TokenStaked.active; rw [i2]; exact h1, h2, hs⟩

/-! ## Staking everything -/

theorem stake_all (hM : Made c dao self d th denom t w0) (hI : Init b0 w0) : ∀ (L : List Addr) {w : World} {b : Block} {log : List Event},
    sys.Run w0 b0 log w b → Idle dao log → L.Nodup → (∀ a ∈ L, a ≠ self ∧ a ≠ dao ∧ holds w a ≠ 0) →
    ∃ w' log', sys.Run w0 b0 log' w' b ∧ Idle dao log' ∧ w'.vm.total = w.vm.total + (L.map (holds w)).sum ∧
      inCirculation w' = inCirculation w := by
  intro L
  induction L with
  | nil => intro w b log hr hi _ _; exact ⟨w, log, hr, hi, by simp, rfl⟩
  | cons a L ih =>
    intro w b log hr hi hnd hL
    obtain ⟨ha1, ha2, ha3⟩ := hL a List.mem_cons_self
    have haddr : w.self = self := by
      obtain ⟨_, _, _, _, _, _, _, _, t', _, _, h3, hM'⟩ := init_made hI
      rw [(run_proj (hM'.inv h3) hr).2.2.1, hM.addr]
    obtain ⟨w1, out, hs, _, htot⟩ := C115_stake ⟨b0, w0, hI, hr⟩ (e := { block := b, sender := a }) (by rw [haddr]; exact ha1)
      ha3 (Nat.le_refl _)
    have hr' : sys.Run w0 b0 _ _ b := Sys.Run.step (M := sys) (env := { block := b, sender := a })
      (call := .stake (holds w a)) hr ⟨Nat.le_refl _, Nat.le_refl _⟩ hs
    have hi' : Idle dao (⟨w, { block := b, sender := a }, .stake (holds w a), out, w1⟩ :: log) := by
      intro e he
      rcases List.mem_cons.1 he with rfl | he
      · exact ha2
      · exact hi e he
    obtain ⟨hnm, hnd'⟩ := List.nodup_cons.1 hnd
    simp only [step, bind_ok, require_ok, decide_eq_true_eq, Prod.exists, Except.ok.injEq, Prod.mk.injEq] at hs
    obtain ⟨_, _, m', h2, vm, o, h3, rfl, rfl⟩ := hs
    have hmv := move_ledger h2
    have hkeep : ∀ x ∈ L, holds { w with vm := vm, chain := { w.chain with bal := m' } } x = holds w x := by
      intro x hx
      have hxa : x ≠ a := fun h => hnm (h ▸ hx)
      have hxs : x ≠ w.self := by rw [haddr]; exact (hL x (List.mem_cons_of_mem _ hx)).1
      have := Ledger.move_other hmv hxa
      rw [if_neg (Ne.symm hxs), ledgerOf_get, ledgerOf_get] at this
      exact this
    obtain ⟨w', log', r1, r2, r3, r4⟩ := ih hr' hi' hnd' (fun x hx => by
      obtain ⟨x1, x2, x3⟩ := hL x (List.mem_cons_of_mem _ hx)
      exact ⟨x1, x2, by rw [hkeep x hx]; exact x3⟩)
    refine ⟨w', log', r1, r2, ?_, ?_⟩
    · rw [r3, List.map_congr_left hkeep, htot]
      simp only [List.map_cons, List.sum_cons]
      omega
    · rw [r4]; exact Ledger.move_total hmv

/-- The two ways to count a list. -/
theorem listed_eq (l : List (Addr × Nat)) (a : Addr) : listed l a = Spec.TokenDao.listed l a := by
  induction l with
  | nil => rfl
  | cons x l ih => rw [FanToken.listed_cons, TokenDao.listed_cons, ih]

theorem filter_others {dao a : Addr} (h : a ≠ dao) (l : List (Addr × Nat)) :
    listed (l.filter (fun x => x.1 ≠ dao)) a = listed l a := by
  induction l with
  | nil => rfl
  | cons x l ih =>
    rw [FanToken.listed_cons]
    by_cases hx : x.1 = dao
    · rw [List.filter_cons_of_neg (by simp [hx]), ih, if_neg (by rw [hx]; exact Ne.symm h), Nat.zero_add]
    · rw [List.filter_cons_of_pos (by simpa using hx), FanToken.listed_cons, ih]

/-- **C115.** The holders of the fan token can make their new DAO active, without any doing of the DAO, exactly if the
coins made for them meet the threshold out of all coins, those made for the DAO included. -/
theorem C115_active_iff (hm : t.max < U128) (hne : dao ≠ self ∧ dao ≠ c.self ∧ self ≠ c.self)
    (hc : FanToken.sys.Reach c b' clog) (h : create c b0 dao self d th denom t = .ok w0)
    (hl : ∀ x ∈ t.initial, x.1 ≠ self) :
    (∃ log w b, sys.Run w0 b0 log w b ∧ Idle dao log ∧ active w = .ok true) ↔
      Met th (forOthers dao t.initial) (minted t) := by
  have hM := create_forward hc h
  have hmo := minted_others dao t
  constructor
  · rintro ⟨log, w, b, hr, hi, hact⟩
    obtain ⟨r, h1, h2, hs⟩ := active_of hM hm hne.1 hr hi
    rw [h1, Except.ok.injEq] at hact
    obtain ⟨k1, k2⟩ := C115_ceiling hm hne.1 hc h hr hi
    have := met_burn hs k1 k2 (h2.1 hact)
    rw [show minted t - share t dao dao = forOthers dao t.initial by omega] at this
    exact this
  · intro hmet
    have hI : Init b0 w0 := ⟨c, b', clog, dao, self, d, th, denom, t, hc, hne.1, hne.2.1, hne.2.2, hm, h⟩
    have hh : ∀ a, holds w0 a = share t dao a := fun a => by unfold holds; rw [hM.den]; exact hM.bal a
    obtain ⟨w, log, r1, r2, r3, r4⟩ := stake_all hM hI ((t.initial.filter (fun x => x.1 ≠ dao)).map (·.1)).dedup
      (w := w0) (b := b0) (log := []) (.refl) (fun e he => absurd he List.not_mem_nil) (List.nodup_dedup _) (by
        intro a ha
        rw [List.mem_dedup] at ha
        obtain ⟨x, hx, rfl⟩ := List.mem_map.1 ha
        obtain ⟨hx1, hx2⟩ := List.mem_filter.1 hx
        have hxd : x.1 ≠ dao := by simpa using hx2
        refine ⟨hl x hx1, hxd, ?_⟩
        rw [hh]
        unfold share
        have := TokenDao.listed_ne hM.nz (a := x.1) (List.mem_map.2 ⟨x, hx1, rfl⟩)
        rw [← listed_eq] at this
        omega)
    have hsum : (((t.initial.filter (fun x => x.1 ≠ dao)).map (·.1)).dedup.map (holds w0)).sum = forOthers dao t.initial := by
      unfold forOthers
      have := TokenDao.sum_listed (List.nodup_dedup ((t.initial.filter (fun x => x.1 ≠ dao)).map (·.1)))
        (t.initial.filter (fun x => x.1 ≠ dao)) (fun x hx => by
          rw [List.mem_dedup]; exact List.mem_map.2 ⟨x, hx, rfl⟩)
      unfold Spec.TokenDao.sumOf at this
      rw [← this]
      congr 1
      apply List.map_congr_left
      intro a ha
      rw [List.mem_dedup] at ha
      obtain ⟨x, hx, rfl⟩ := List.mem_map.1 ha
      obtain ⟨hx1, hx2⟩ := List.mem_filter.1 hx
      have hxd : x.1 ≠ dao := by simpa using hx2
      rw [hh, ← listed_eq, filter_others hxd]
      unfold share
      rw [if_neg (Ne.symm hxd), Nat.add_zero]
    obtain ⟨r, h1, h2, _⟩ := active_of hM hm hne.1 r1 r2
    have hcirc : inCirculation w0 = minted t := by unfold inCirculation; rw [hM.den]; exact hM.supply
    refine ⟨log, w, b0, r1, r2, ?_⟩
    rw [h1, h2.2 (by rw [r3, r4, hsum, hM.nothing, hcirc, Nat.zero_add]; exact hmet)]

/-- **C115.** Every threshold the module accepts can be met by the holders, if it is a count, or if nothing is made for the
DAO.

Not proved, because it is false (`Example.C115_born_locked`): the same for a percentage when coins are made for the DAO. -/
theorem C115_can_activate_partial (hm : t.max < U128) (hne : dao ≠ self ∧ dao ≠ c.self ∧ self ≠ c.self)
    (hc : FanToken.sys.Reach c b' clog) (h : create c b0 dao self d th denom t = .ok w0)
    (hl : ∀ x ∈ t.initial, x.1 ≠ self) (hp : share t dao dao = 0 ∨ ∀ p, th ≠ some (.percentage p)) :
    ∃ log w b, sys.Run w0 b0 log w b ∧ Idle dao log ∧ active w = .ok true := by
  rw [C115_active_iff hm hne hc h hl]
  have hM := create_forward hc h
  obtain ⟨_, _, _, hs⟩ := active_of hM hm hne.1 (.refl (b := b0)) (fun e he => absurd he List.not_mem_nil)
  have hmo := minted_others dao t
  cases th with
  | none => trivial
  | some x =>
    cases x with
    | absolute k => exact hs.2
    | percentage p =>
      rcases hp with hp | hp
      · rw [hmo, hp, Nat.zero_add]
        obtain ⟨_, h2⟩ := hs
        rw [DEC_ONE_eq] at h2
        simp only [Met]
        have := Nat.mul_le_mul_right (forOthers dao t.initial) h2
        generalize p * forOthers dao t.initial = y at *
        omega
      · exact absurd rfl (hp p)

end Verif.FanDao
