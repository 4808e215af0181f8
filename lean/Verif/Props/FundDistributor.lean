import Verif.Proofs.FundDistributor
/-!
# C43, C44: fund distributor
-/

namespace Verif.FundDistributor

open Verif.Spec.FundDistributor

variable {P : Nat → Addr → Nat} {b0 b : Block} {w0 w w' : World} {log : Log}

theorem pool_eq {T : Nat} (hi : Inv T P w b log) (t : Token) : pool t log = getD0 w.c.balances t := by
  have h1 := hi.hist t
  unfold pool
  omega

/-- C43. In every history, what a member has received of a token since the last redistribution is either nothing or
exactly its share of the pool, however its claims are ordered, split or repeated; and it is the share as soon as the
member has made one successful claim that covers the token. -/
theorem C43_share (h0 : sys.init b0 w0) (hr : sys.Run w0 b0 log w b) (hP : Answers P log) (a : Addr) (t : Token) :
    (received a t (thisRound log) = 0 ∨
      received a t (thisRound log) = fairShare (pool t log) (P w.c.distHeight a) w0.c.totalPower) ∧
    ((∃ e ∈ thisRound log, claimsFor a t e.call = true) →
      received a t (thisRound log) = fairShare (pool t log) (P w.c.distHeight a) w0.c.totalPower) := by
  have hi := inv_run h0 hr hP
  rw [pool_eq hi, ← hi.mine a t]
  refine ⟨?_, hi.full a t⟩
  cases hv : w.c.claims.get (a, t) with
  | none => left; unfold getD0; rw [hv]; rfl
  | some v => right; rw [← hi.share a t v hv]; unfold getD0; rw [hv]; rfl

/-- C43: the pool is fixed when the funding period ends. Whatever happens afterwards, short of a redistribution, it and
the height at which power counts stay the same. -/
theorem C43_pool_fixed {b1 : Block} {w1 : World} {log1 : Log} (h0 : sys.init b0 w0) (hr : sys.Run w0 b0 log w b)
    (hP : Answers P (log1 ++ log)) (hex : w.c.funding.isExpired b = true) (hr1 : sys.Run w b log1 w1 b1)
    (hno : ∀ e ∈ log1, starts e.call = false) (t : Token) :
    pool t (log1 ++ log) = pool t log ∧ w1.c.distHeight = w.c.distHeight ∧ w1.c.funding.isExpired b1 = true := by
  have hb : getD0 w1.c.balances t = getD0 w.c.balances t ∧ w1.c.distHeight = w.c.distHeight ∧
      w1.c.funding.isExpired b1 = true := by
    have hP' := hP
    clear hP
    induction hr1 with
    | refl => exact ⟨rfl, rfl, hex⟩
    | step hr1 hb hs ih =>
      rename_i s1 s2 b2 lg env call out
      obtain ⟨i1, i2, i3⟩ := ih (fun e he => hno e (List.mem_cons_of_mem _ he))
        (fun e he => hP' e (List.mem_cons_of_mem _ he))
      have hst := hno _ (List.mem_cons_self ..)
      have hx := Expiration.isExpired_mono hb i3
      cases step_effect hs with
      | fund _ c l _ _ hne =>
        have : s1.c.funding.isExpired (sys.block env) = s1.c.funding.isExpired env.block := rfl
        rw [this, hne] at hx; cases hx
      | claim _ a share ts c _ l _ _ _ _ _ _ hc _ =>
        obtain ⟨s1', s2', _, s4'⟩ := hc.same
        simp only at s1' s2' s4' ⊢
        rw [s1', s2', s4']
        exact ⟨i1, i2, hx⟩
      | redistribute => cases hst
      | transfer => exact ⟨i1, i2, hx⟩
  have hi := inv_run h0 hr (fun e he => hP e (List.mem_append_right _ he))
  have hi1 := inv_run h0 (hr.append hr1) hP
  rw [pool_eq hi, pool_eq hi1]
  exact hb

/-- The share is the exact fraction of the pool, but for the rounding: at most one token and `pool / 10^18` less. -/
theorem C43_fair (f p T : Nat) (hT : T ≠ 0) :
    fairShare f p T * T ≤ f * p ∧ f * p ≤ (fairShare f p T + 1 + (f / 10 ^ 18 + 1)) * T := by
  unfold fairShare
  generalize hD : 10 ^ 18 = D
  have hDp : 0 < D := by rw [← hD]; decide
  have hTp : 0 < T := Nat.pos_of_ne_zero hT
  have s1 : p * D / T * T ≤ p * D := Nat.div_mul_le_self _ _
  have s2 : p * D < (p * D / T + 1) * T := by
    rw [Nat.mul_comm (p * D / T + 1)]; exact Nat.lt_mul_div_succ (p * D) hTp
  have q1 : f * (p * D / T) / D * D ≤ f * (p * D / T) := Nat.div_mul_le_self _ _
  have q2 : f * (p * D / T) < (f * (p * D / T) / D + 1) * D := by
    rw [Nat.mul_comm (f * (p * D / T) / D + 1)]; exact Nat.lt_mul_div_succ (f * (p * D / T)) hDp
  have r2 : f < (f / D + 1) * D := by
    have := Nat.lt_mul_div_succ f hDp
    rw [Nat.mul_comm]; exact this
  generalize hs : p * D / T = s at *
  generalize hq : f * s / D = q at *
  generalize f / D = r at *
  constructor
  · apply Nat.le_of_mul_le_mul_right _ hDp
    calc q * T * D = q * D * T := by rw [Nat.mul_right_comm]
      _ ≤ f * s * T := Nat.mul_le_mul_right _ q1
      _ = f * (s * T) := Nat.mul_assoc _ _ _
      _ ≤ f * (p * D) := Nat.mul_le_mul_left _ s1
      _ = f * p * D := (Nat.mul_assoc _ _ _).symm
  · apply Nat.le_of_mul_le_mul_right _ hDp
    calc f * p * D = f * (p * D) := Nat.mul_assoc _ _ _
      _ ≤ f * ((s + 1) * T) := Nat.mul_le_mul_left _ (Nat.le_of_lt s2)
      _ = (f * s + f) * T := by rw [← Nat.mul_assoc, Nat.mul_add, Nat.mul_one]
      _ ≤ ((q + 1) * D + (r + 1) * D) * T :=
          Nat.mul_le_mul_right _ (Nat.add_le_add (Nat.le_of_lt q2) (Nat.le_of_lt r2))
      _ = (q + 1 + (r + 1)) * T * D := by rw [← Nat.add_mul, Nat.mul_right_comm]

/-! ## Solvency -/

theorem sum_div_le (D x : Nat) (hD : 0 < D) (f : Addr → Nat) (as : List Addr) :
    (as.map (fun a => x * f a / D)).sum ≤ x * (as.map f).sum / D := by
  induction as with
  | nil => simp
  | cons a as ih =>
    simp only [List.map_cons, List.sum_cons]
    rw [Nat.mul_add]
    have h1 : x * f a / D + x * (as.map f).sum / D ≤ (x * f a + x * (as.map f).sum) / D := by
      rw [Nat.le_div_iff_mul_le hD, Nat.add_mul]
      exact Nat.add_le_add (Nat.div_mul_le_self _ _) (Nat.div_mul_le_self _ _)
    omega

theorem sum_mul_div_le (D T : Nat) (hT : 0 < T) (f : Addr → Nat) (as : List Addr) :
    (as.map (fun a => f a * D / T)).sum ≤ (as.map f).sum * D / T := by
  have := sum_div_le T D hT f as
  simp only [Nat.mul_comm D] at this
  exact this

/-- The shares of distinct members whose power stays within the total stay within the pool. -/
theorem sum_fairShare {funds T : Nat} (hT : T ≠ 0) (p : Addr → Nat) (as : List Addr) (hs : (as.map p).sum ≤ T) :
    (as.map (fun a => fairShare funds (p a) T)).sum ≤ funds := by
  have hTp : 0 < T := Nat.pos_of_ne_zero hT
  unfold fairShare
  generalize hD : 10 ^ 18 = D
  have hDp : 0 < D := by rw [← hD]; decide
  have h1 := sum_div_le D funds hDp (fun a => p a * D / T) as
  have h2 := sum_mul_div_le D T hTp p as
  have h3 : (as.map p).sum * D / T ≤ D := by
    rw [Nat.div_le_iff_le_mul_add_pred hTp]
    have := Nat.mul_le_mul_right D hs
    omega
  have h4 : funds * (as.map (fun a => p a * D / T)).sum / D ≤ funds * D / D :=
    Nat.div_le_div_right (Nat.mul_le_mul_left _ (Nat.le_trans h2 h3))
  rw [Nat.mul_div_cancel _ hDp] at h4
  omega

/-- The members with a recorded claim of a token. -/
def claimants (t : Token) (m : AMap (Addr × Token) Nat) : List Addr :=
  (m.filter (fun e => decide (e.1.2 = t))).map (fun e => e.1.1)

theorem claimants_nodup (t : Token) {m : AMap (Addr × Token) Nat} (hm : m.WF) : (claimants t m).Nodup := by
  induction m with
  | nil => simp [claimants]
  | cons e m ih =>
    obtain ⟨⟨a, x⟩, n⟩ := e
    simp only [AMap.WF, List.map_cons, List.nodup_cons] at hm
    have ih := ih hm.2
    by_cases hx : x = t
    · subst hx
      unfold claimants at ih ⊢
      rw [List.filter_cons_of_pos (by simp), List.map_cons, List.nodup_cons]
      refine ⟨?_, ih⟩
      intro hmem
      obtain ⟨⟨⟨a', x'⟩, n'⟩, h1, h2⟩ := List.mem_map.1 hmem
      have h3 := List.mem_filter.1 h1
      simp only [decide_eq_true_eq] at h2 h3
      apply hm.1
      rw [← h2, ← h3.2]
      exact List.mem_map.2 ⟨_, h3.1, rfl⟩
    · unfold claimants at ih ⊢
      rw [List.filter_cons_of_neg (by simpa using hx)]
      exact ih

theorem sumOf_claimants (t : Token) {m : AMap (Addr × Token) Nat} (g : Addr → Nat)
    (hg : ∀ a v, ((a, t), v) ∈ m → v = g a) : sumOf t m = ((claimants t m).map g).sum := by
  induction m with
  | nil => rfl
  | cons e m ih =>
    obtain ⟨⟨a, x⟩, n⟩ := e
    have ih := ih (fun a v h => hg a v (List.mem_cons_of_mem _ h))
    have e2 : sumOf t (((a, x), n) :: m) = (if x = t then n else 0) + sumOf t m := rfl
    rw [e2, ih]
    by_cases hx : x = t
    · subst hx
      rw [if_pos rfl, hg a n (List.mem_cons_self ..)]
      unfold claimants
      rw [List.filter_cons_of_pos (by simp)]
      simp
    · rw [if_neg hx]
      unfold claimants
      rw [List.filter_cons_of_neg (by simpa using hx), Nat.zero_add]

theorem round_le {T : Nat} (hT : T ≠ 0) (hi : Inv T P w b log)
    (hs : ∀ as : List Addr, as.Nodup → (as.map (P w.c.distHeight)).sum ≤ T) (t : Token) :
    paidOut t (thisRound log) ≤ getD0 w.c.balances t := by
  rw [← hi.sum t, sumOf_claimants t (fun a => fairShare (getD0 w.c.balances t) (P w.c.distHeight a) T)
    (fun a v hv => hi.share a t v (AMap.get_of_mem hi.wf hv))]
  exact sum_fairShare hT _ _ (hs _ (claimants_nodup t hi.wf))

/-- C44. If at the distribution heights in force no set of members has more power than the recorded total, all the
payments of a round together stay within the pool of the round, all the payments ever within what was funded, and the
contract holds what was funded and not paid out. -/
theorem C44_solvent (h0 : sys.init b0 w0) (hr : sys.Run w0 b0 log w b) (hP : Answers P log) (hW : Within P w log)
    (t : Token) :
    paidOut t (thisRound log) ≤ pool t log ∧ paidOut t log ≤ funded t log ∧
      funded t log - paidOut t log ≤ getD0 w.ledger (t, w.self) := by
  have hi := inv_run h0 hr hP
  have h1 := round_le (inv_init h0 P).2 hi (by rw [← hi.total]; exact hW _ (.inl rfl)) t
  have h2 := hi.hist t
  have h3 := hi.earlier t
  have h4 := hi.solvent t
  rw [pool_eq hi]
  refine ⟨h1, ?_, ?_⟩ <;> omega

/-- C44, without any assumption on the powers: a redistribution succeeds only if the round stayed within its pool. -/
theorem C44_redistribute {e : Env} {a : Addr} {h : Nat} {o : List Pay} (h0 : sys.init b0 w0)
    (hr : sys.Run w0 b0 log w b) (hP : Answers P log) (hs : sys.step w e (.redistribute a h) = .ok (w', o))
    (t : Token) : paidOut t log ≤ funded t log ∧ getD0 w'.c.balances t = funded t log - paidOut t log := by
  have hi := inv_run h0 hr hP
  cases step_effect hs with
  | redistribute _ _ b hb =>
    have h1 := subtract_ok hb t
    have h2 := hi.hist t
    have h3 := hi.earlier t
    have h4 := hi.sum t
    simp only
    constructor <;> omega
  | fund _ _ _ _ hst => cases hst
  | claim _ _ _ _ _ _ _ _ hst => cases hst

/-! ## Claims go through -/

theorem entitlement_live {bal share prev : Nat} (hb : bal < U128) (hs : share ≤ DEC_ONE)
    (hp : prev ≤ shareOf bal share) : entitlement bal share prev = .ok (shareOf bal share - prev) := by
  have hle : bal * share / DEC_ONE ≤ bal := by
    have := Nat.div_le_div_right (c := DEC_ONE) (Nat.mul_le_mul_left bal hs)
    rwa [Nat.mul_div_cancel _ DEC_ONE_pos] at this
  unfold entitlement multiplyRatio
  rw [if_neg (Nat.pos_iff_ne_zero.1 DEC_ONE_pos), if_pos (Nat.lt_of_le_of_lt hle hb), ok_bind]
  exact (sub128_ok _ _ _).2 ⟨hp, rfl⟩

theorem claimOne_live {s : State} {a : Addr} {share : Nat} {t : Token} (hb : ∀ t, getD0 s.balances t < U128)
    (hs : share ≤ DEC_ONE) (hp : getD0 s.claims (a, t) ≤ shareOf (getD0 s.balances t) share)
    (ht : s.balances.get t ≠ none) : ∃ r, claimOne s a share t = .ok r := by
  cases hg : s.balances.get t with
  | none => exact absurd hg ht
  | some bal =>
    have eb : getD0 s.balances t = bal := by unfold getD0; rw [hg]; rfl
    have hle : shareOf bal share ≤ bal := by
      have := Nat.div_le_div_right (c := DEC_ONE) (Nat.mul_le_mul_left bal hs)
      rwa [Nat.mul_div_cancel _ DEC_ONE_pos] at this
    have hbt := hb t
    rw [eb] at hp hbt
    unfold claimOne
    rw [hg]
    simp only [orErr, ok_bind]
    rw [entitlement_live hbt hs hp, ok_bind]
    unfold record
    split
    · exact ⟨_, rfl⟩
    · have hadd : add128 (getD0 s.claims (a, t)) (shareOf bal share - getD0 s.claims (a, t)) =
          .ok (shareOf bal share) := (add128_ok _ _ _).2 ⟨by omega, by omega⟩
      rw [hadd, ok_bind]
      exact ⟨_, rfl⟩

theorem claimTokens_live {s : State} {a : Addr} {share : Nat} {ts : List Token}
    (hb : ∀ t, getD0 s.balances t < U128) (hs : share ≤ DEC_ONE)
    (hp : ∀ t, getD0 s.claims (a, t) ≤ shareOf (getD0 s.balances t) share)
    (ht : ∀ t ∈ ts, s.balances.get t ≠ none) : ∃ r, claimTokens s a share ts = .ok r := by
  induction ts generalizing s with
  | nil => exact ⟨_, rfl⟩
  | cons t ts ih =>
    obtain ⟨r, hr⟩ := claimOne_live hb hs (hp t) (ht t (List.mem_cons_self ..))
    have hc := claimOne_ok hr
    obtain ⟨_, _, _, e4⟩ := hc.same
    obtain ⟨r2, hr2⟩ := ih (s := r.1) (by rw [e4]; exact hb) (by
      intro x
      rw [e4]
      unfold getD0
      cases hv : r.1.claims.get (a, x) with
      | none => exact Nat.zero_le _
      | some v =>
        rcases hc.new x v hv with h3 | h3
        · have := hp x
          unfold getD0 at this
          rw [h3] at this
          exact this
        · exact Nat.le_of_eq h3) (by
      intro x hx
      rw [e4]
      exact ht x (List.mem_cons_of_mem _ hx))
    exact ⟨_, by unfold claimTokens; rw [hr, ok_bind, hr2, ok_bind]⟩

theorem claim_pays_live {T : Nat} (hT : T ≠ 0) (hi : Inv T P w b log) {e : Env}
    (hP : ∀ a, e.power a w.c.distHeight = P w.c.distHeight a)
    (hs : ∀ as : List Addr, as.Nodup → (as.map (P w.c.distHeight)).sum ≤ T) {a : Addr} (ha : a ≠ w.self)
    (hroom : ∀ t, getD0 w.ledger (t, a) + getD0 w.ledger (t, w.self) < U128)
    {ts : List Token} (ht : ∀ t ∈ ts, w.c.balances.get t ≠ none) :
    ∃ share r l, relativeShare w.c e a = .ok share ∧ claimTokens w.c a share ts = .ok r ∧
      payAll w.self r.2 w.ledger = .ok l := by
  have hTp : 0 < T := Nat.pos_of_ne_zero hT
  have hpa : P w.c.distHeight a ≤ T := by simpa using hs [a] (by simp)
  have hle : P w.c.distHeight a * DEC_ONE / T ≤ DEC_ONE := by
    have := Nat.div_le_div_right (c := T) (Nat.mul_le_mul_right DEC_ONE hpa)
    rwa [Nat.mul_div_cancel_left _ hTp] at this
  have hd : DEC_ONE < U128 := by decide +kernel
  have hsh : relativeShare w.c e a = .ok (P w.c.distHeight a * DEC_ONE / T) := by
    unfold relativeShare multiplyRatio
    rw [hP, hi.total, if_neg hT, if_pos (by omega)]
  have hshare : ∀ t, shareOf (getD0 w.c.balances t) (P w.c.distHeight a * DEC_ONE / T) =
      fairShare (getD0 w.c.balances t) (P w.c.distHeight a) T := by
    intro t; unfold shareOf fairShare; rw [dec_one]
  obtain ⟨r, hr⟩ := claimTokens_live (s := w.c) (a := a) hi.bound hle (by
    intro t
    rw [hshare]
    unfold getD0
    cases hv : w.c.claims.get (a, t) with
    | none => exact Nat.zero_le _
    | some v => exact Nat.le_of_eq (hi.share a t v hv)) ht
  have hc := claimTokens_ok hr
  obtain ⟨c1, c2, c3, c4⟩ := hc.same
  have key : ∀ t, payOf t r.2 ≤ getD0 w.ledger (t, w.self) := by
    intro t
    -- all the claims recorded after this one still stay within the pool
    have hall : ∀ q v, ((q, t), v) ∈ r.1.claims →
        v = fairShare (getD0 w.c.balances t) (P w.c.distHeight q) T := by
      intro q v hv
      have hv := AMap.get_of_mem (hc.wf hi.wf) hv
      by_cases hq : q = a
      · subst hq
        rcases hc.new t v hv with h3 | h3
        · exact hi.share q t v h3
        · rw [h3, hshare]
      · rw [hc.others q t hq] at hv
        exact hi.share q t v hv
    have h1 := sumOf_claimants t _ hall
    have h2 := sum_fairShare (funds := getD0 w.c.balances t) hT (P w.c.distHeight) _
      (hs _ (claimants_nodup t (hc.wf hi.wf)))
    have h3 := hc.sum t
    have h4 := hi.sum t
    have h5 := hi.solvent t
    omega
  obtain ⟨l, hl⟩ := payAll_live ha hc.to key hroom
  exact ⟨_, r, l, hsh, hr, hl⟩

/-- C43/C44, claims never fail for lack of funds. After the funding period, if no set of members has more power than
the recorded total, a claim of everything in the pool succeeds in every state of every history. (`hroom`: the
claimant's balance with that of the contract does not exceed 128 bits.) -/
theorem C43_claim_live {e : Env} {a : Addr} (h0 : sys.init b0 w0) (hr : sys.Run w0 b0 log w b) (hP : Answers P log)
    (hW : Within P w log) (hPe : ∀ a, e.power a w.c.distHeight = P w.c.distHeight a)
    (hex : w.c.funding.isExpired e.block = true) (ha : a ≠ w.self)
    (hroom : ∀ t, getD0 w.ledger (t, a) + getD0 w.ledger (t, w.self) < U128) :
    ∃ w' o, sys.step w e (.claimAll a) = .ok (w', o) := by
  have hi := inv_run h0 hr hP
  have hts : ∀ t ∈ poolTokens w.c, w.c.balances.get t ≠ none := by
    intro t ht
    have : t ∈ w.c.balances.map Prod.fst := by
      unfold poolTokens at ht
      rcases List.mem_append.1 ht with ht | ht <;> exact (List.mem_filter.1 ht).1
    have := (AMap.mem_keys_iff w.c.balances t).1 this
    intro hn; rw [hn] at this; cases this
  obtain ⟨s, r, l, h1, h2, h3⟩ := claim_pays_live (inv_init h0 P).2 hi hPe
    (by rw [← hi.total]; exact hW _ (.inl rfl)) ha hroom hts
  refine ⟨{ w with c := r.1, ledger := l }, r.2, ?_⟩
  show step w e _ = _
  unfold step claimAll settle
  simp only [Call.sender, require, ne_eq, ha, not_false_eq_true, decide_true, if_true, ok_bind, hex, h1, h2, h3]

/-- C43: what the entitlement query shows is what is still owed: the share less what was received. A claim of the token
then pays exactly that. -/
theorem C43_query {e : Env} {a : Addr} {t : Token} {n : Nat} (h0 : sys.init b0 w0) (hr : sys.Run w0 b0 log w b)
    (hP : Answers P log) (hPe : ∀ a, e.power a w.c.distHeight = P w.c.distHeight a)
    (hq : queryEntitlement w.c e a t = .ok n) :
    received a t (thisRound log) + n = fairShare (pool t log) (P w.c.distHeight a) w0.c.totalPower ∧
    ∀ call w' o, claimsFor a t call = true → sys.step w e call = .ok (w', o) → payTo a t o = n := by
  have hi := inv_run h0 hr hP
  unfold queryEntitlement at hq
  obtain ⟨s, hs, hq⟩ := (bind_ok _ _ _).mp hq
  unfold entitlement at hq
  obtain ⟨x, hx, hq⟩ := (bind_ok _ _ _).mp hq
  obtain ⟨hle, hq⟩ := (sub128_ok _ _ _).mp hq
  obtain ⟨_, hx, _⟩ := multiplyRatio_ok hx
  have hs0 := hs
  obtain ⟨_, hs, _⟩ := multiplyRatio_ok hs
  have e1 : x = fairShare (getD0 w.c.balances t) (P w.c.distHeight a) w0.c.totalPower := by
    rw [hx, hs, hPe, hi.total, dec_one]; rfl
  rw [pool_eq hi, ← hi.mine]
  refine ⟨by omega, ?_⟩
  intro call w' o hcl hstep
  cases step_effect hstep with
  | fund _ _ _ hno => rw [hno] at hcl; cases hcl
  | claim _ a' share ts c _ l _ _ _ hcov _ hsh hc =>
    obtain ⟨rfl, h4⟩ := hcov a t hcl
    rw [hs0] at hsh
    simp only [Except.ok.injEq] at hsh
    subst hsh
    have h5 := hc.mine t
    simp only at h5
    have e2 : shareOf (getD0 w.c.balances t) s = x := by rw [hx]; rfl
    rcases h4 with h4 | h4
    · have h6 := (hc.full t h4).1
      simp only at h6
      omega
    · have hz : getD0 w.c.balances t = 0 := by unfold getD0; rw [h4]; rfl
      have hx0 : x = 0 := by rw [e1, hz]; simp [fairShare]
      have h7 : getD0 c.claims (a, t) = 0 := by
        unfold getD0
        cases hv : c.claims.get (a, t) with
        | none => rfl
        | some v =>
          rcases hc.new t v hv with h3 | h3
          · have := hi.share a t v h3
            rw [← e1, hx0] at this
            exact this
          · rw [e2, hx0] at h3; exact h3
      omega
  | redistribute => cases hcl
  | transfer => cases hcl

/-! ## Concrete histories -/

/-- Two members with 3 and 7 of 10, at every height. -/
def exE (b : Block) : Env :=
  { block := b, power := fun a _ => if a = 1 then 3 else if a = 2 then 7 else 0, total := fun _ => 10 }

def exW : World :=
  { c := { distHeight := 5, funding := .atHeight 20, totalPower := 10, balances := [], claims := [] }
    self := 99, ledger := [((.native 7, 50), 200), ((.cw20 30, 50), 40)] }

theorem exW_init : sys.init ⟨10, 0⟩ exW := ⟨exE ⟨10, 0⟩, 5, .height 10, rfl, by decide +kernel⟩

def exCalls : List (Env × Call) :=
  [(exE ⟨11, 0⟩, .fundNative 50 [(7, 100)]), (exE ⟨12, 0⟩, .fundCw20 30 50 40), (exE ⟨13, 0⟩, .fundNative 50 [(7, 1)]),
   (exE ⟨20, 0⟩, .claimNative 2 [7, 7]), (exE ⟨21, 0⟩, .claimAll 2), (exE ⟨22, 0⟩, .claimAll 1)]

/-- Both members get their shares of 101 and of 40, in whatever portions they claim. -/
theorem exW_run : ∃ w b log, sys.Run exW ⟨10, 0⟩ log w b ∧
    (decide (log.length = 6 ∧ received 1 (.native 7) log = 30 ∧ received 2 (.native 7) log = 70 ∧
      received 1 (.cw20 30) log = 12 ∧ received 2 (.cw20 30) log = 28 ∧ pool (.native 7) log = 101 ∧
      fairShare 101 7 10 = 70 ∧ getD0 w.ledger (.native 7, 99) = 1)) = true :=
  Sys.check_run (M := sys) (s := exW) (b := ⟨10, 0⟩) (cs := exCalls)
    (p := fun w _ log => decide (log.length = 6 ∧ received 1 (.native 7) log = 30 ∧ received 2 (.native 7) log = 70 ∧
      received 1 (.cw20 30) log = 12 ∧ received 2 (.cw20 30) log = 28 ∧ pool (.native 7) log = 101 ∧
      fairShare 101 7 10 = 70 ∧ getD0 w.ledger (.native 7, 99) = 1)) (by decide +kernel)

/-- A redistribution starts a new round with what is left: after member 1 has claimed 30 of 100, the remaining 70 are
shared anew. -/
theorem exW_again : ∃ w b log, sys.Run exW ⟨10, 0⟩ log w b ∧
    (decide (pool (.native 7) log = 70 ∧ received 1 (.native 7) (thisRound log) = 21 ∧ paidOut (.native 7) log = 51)) = true :=
  Sys.check_run (M := sys) (s := exW) (b := ⟨10, 0⟩)
    (cs := [(exE ⟨11, 0⟩, .fundNative 50 [(7, 100)]), (exE ⟨20, 0⟩, .claimAll 1), (exE ⟨21, 0⟩, .redistribute 50 9),
      (exE ⟨21, 0⟩, .claimAll 1)])
    (p := fun _ _ log => decide (pool (.native 7) log = 70 ∧ received 1 (.native 7) (thisRound log) = 21 ∧
      paidOut (.native 7) log = 51)) (by decide +kernel)

/-- Members 1 and 2 have 10 each at height 5; member 2 has left by height 10. At each height the powers of the members
add up to the total. -/
def exE2 (b : Block) : Env :=
  { block := b
    power := fun a h => if a = 1 then 10 else if a = 2 ∧ h < 10 then 10 else 0
    total := fun h => if h < 10 then 20 else 10 }

theorem exE2_consistent (b : Block) (h : Nat) :
    (exE2 b).total h = (exE2 b).power 1 h + (exE2 b).power 2 h ∧ ∀ a, a ≠ 1 → a ≠ 2 → (exE2 b).power a h = 0 := by
  refine ⟨?_, ?_⟩
  · simp only [exE2, if_true, true_and]
    split <;> simp
  · intro a h1 h2
    simp [exE2, h1, h2]

theorem exW_init2 : sys.init ⟨10, 0⟩ exW := ⟨exE2 ⟨10, 0⟩, 5, .height 10, rfl, by decide +kernel⟩

/-- C43 and C44 without the assumption on the powers: the total is read at the height of the instantiation, the power of
the members at the distribution height. Here both members are entitled to the whole pool of 100 at once; the first
takes it and the claim of the second fails. -/
theorem C44_heights_differ : ∃ w b log, sys.Run exW ⟨10, 0⟩ log w b ∧
    (decide (funded (.native 7) log = 100 ∧ received 1 (.native 7) log = 100 ∧
      queryEntitlement w.c (exE2 b) 2 (.native 7) = .ok 100) &&
      (match sys.step w (exE2 b) (.claimAll 2) with | .ok _ => false | .error _ => true)) = true :=
  Sys.check_run (M := sys) (s := exW) (b := ⟨10, 0⟩)
    (cs := [(exE2 ⟨11, 0⟩, .fundNative 50 [(7, 100)]), (exE2 ⟨20, 0⟩, .claimAll 1)])
    (p := fun w b log => decide (funded (.native 7) log = 100 ∧ received 1 (.native 7) log = 100 ∧
      queryEntitlement w.c (exE2 b) 2 (.native 7) = .ok 100) &&
      (match sys.step w (exE2 b) (.claimAll 2) with | .ok _ => false | .error _ => true)) (by decide +kernel)

/-- With other coins in the contract the same history pays out twice what was funded. -/
theorem C44_heights_overpay : ∃ w b log, sys.Run exW ⟨10, 0⟩ log w b ∧
    (decide (funded (.native 7) log = 100 ∧ paidOut (.native 7) log = 200)) = true :=
  Sys.check_run (M := sys) (s := exW) (b := ⟨10, 0⟩)
    (cs := [(exE2 ⟨11, 0⟩, .fundNative 50 [(7, 100)]), (exE2 ⟨12, 0⟩, .transfer (.native 7) 50 99 100),
      (exE2 ⟨20, 0⟩, .claimAll 1), (exE2 ⟨20, 0⟩, .claimAll 2)])
    (p := fun _ _ log => decide (funded (.native 7) log = 100 ∧ paidOut (.native 7) log = 200)) (by decide +kernel)

end Verif.FundDistributor
