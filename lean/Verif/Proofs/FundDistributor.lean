import Verif.Spec.FundDistributor
/-!
# Invariants of the fund distributor
-/

namespace Verif.FundDistributor

open Verif.Spec.FundDistributor

theorem dec_one : DEC_ONE = 10 ^ 18 := by decide +kernel

/-- What is recorded as claimed of a token. -/
def sumOf (t : Token) (m : AMap (Addr × Token) Nat) : Nat := AMap.sum (fun k v => if k.2 = t then v else 0) m

theorem sumOf_set (t : Token) (m : AMap (Addr × Token) Nat) (a : Addr) (x : Token) (v : Nat) :
    sumOf t (AMap.set m (a, x) v) + (if x = t then getD0 m (a, x) else 0) = sumOf t m + (if x = t then v else 0) := by
  have h := AMap.sum_set (fun (k : Addr × Token) v => if k.2 = t then v else 0) m (a, x) v
  have e : AMap.at? (fun (k : Addr × Token) v => if k.2 = t then v else 0) m (a, x) =
      if x = t then getD0 m (a, x) else 0 := by
    unfold AMap.at? getD0
    cases m.get (a, x) <;> simp
  rw [e] at h
  exact h

theorem multiplyRatio_ok {x n d r : Nat} (h : multiplyRatio x n d = .ok r) : d ≠ 0 ∧ r = x * n / d ∧ r < U128 := by
  unfold multiplyRatio at h
  split at h
  · cases h
  · split at h
    · simp only [Except.ok.injEq] at h
      subst h
      exact ⟨by assumption, rfl, by assumption⟩
    · cases h

/-- What the shares of `claimTokens` come to. -/
def shareOf (bal share : Nat) : Nat := bal * share / DEC_ONE

structure Claimed (s : State) (a : Addr) (share : Nat) (ts : List Token) (r : State × List Pay) : Prop where
  same : r.1.distHeight = s.distHeight ∧ r.1.funding = s.funding ∧ r.1.totalPower = s.totalPower ∧
    r.1.balances = s.balances
  to : ∀ p ∈ r.2, p.to = a
  mine : ∀ t, getD0 r.1.claims (a, t) = getD0 s.claims (a, t) + payTo a t r.2
  others : ∀ q t, q ≠ a → r.1.claims.get (q, t) = s.claims.get (q, t)
  full : ∀ t ∈ ts, getD0 r.1.claims (a, t) = shareOf (getD0 s.balances t) share ∧ s.balances.get t ≠ none
  new : ∀ t v, r.1.claims.get (a, t) = some v → s.claims.get (a, t) = some v ∨ v = shareOf (getD0 s.balances t) share
  wf : s.claims.WF → r.1.claims.WF
  sum : ∀ t, sumOf t r.1.claims = sumOf t s.claims + payOf t r.2

theorem claimOne_ok {s : State} {a : Addr} {share : Nat} {t : Token} {r : State × List Pay}
    (h : claimOne s a share t = .ok r) : Claimed s a share [t] r := by
  unfold claimOne at h
  obtain ⟨bal, hb, h⟩ := (bind_ok _ _ _).mp h
  obtain ⟨n, hn, h⟩ := (bind_ok _ _ _).mp h
  have hb := (orErr_ok _ _ _).mp hb
  have eb : getD0 s.balances t = bal := by unfold getD0; rw [hb]; rfl
  unfold entitlement at hn
  obtain ⟨tot, ht, hn⟩ := (bind_ok _ _ _).mp hn
  obtain ⟨_, ht, _⟩ := multiplyRatio_ok ht
  obtain ⟨hle, hn⟩ := (sub128_ok _ _ _).mp hn
  have et : shareOf (getD0 s.balances t) share = tot := by rw [eb, ht]; rfl
  unfold record at h
  split at h
  · rename_i h0
    simp only [Except.ok.injEq] at h
    subst h
    refine ⟨⟨rfl, rfl, rfl, rfl⟩, fun p hp => by simp at hp, fun x => rfl, fun _ _ _ => rfl, ?_, fun _ _ hv => .inl hv,
      id, fun x => rfl⟩
    intro x hx
    simp only [List.mem_singleton] at hx
    subst hx
    refine ⟨?_, by rw [hb]; simp⟩
    rw [et]
    show getD0 s.claims (a, x) = tot
    omega
  · obtain ⟨c, hc, h⟩ := (bind_ok _ _ _).mp h
    obtain ⟨_, hc⟩ := (add128_ok _ _ _).mp hc
    simp only [Except.ok.injEq] at h
    subst h
    have ec : c = tot := by omega
    refine ⟨⟨rfl, rfl, rfl, rfl⟩, ?_, ?_, ?_, ?_, ?_, fun hw => AMap.WF_set hw _ _, ?_⟩
    · intro p hp
      simp only [List.mem_singleton] at hp
      subst hp; rfl
    · intro x
      simp only [payTo_cons, payTo_nil, true_and, Nat.add_zero]
      rw [getD0_set]
      by_cases hx : t = x
      · subst hx; rw [if_pos rfl, if_pos rfl]; omega
      · rw [if_neg (by intro e; simp only [Prod.mk.injEq, true_and] at e; exact hx e), if_neg hx]; rfl
    · intro q x hq
      exact AMap.get_set_ne _ _ (by intro e; simp only [Prod.mk.injEq] at e; exact hq e.1.symm)
    · intro x hx
      simp only [List.mem_singleton] at hx
      subst hx
      refine ⟨?_, by rw [hb]; simp⟩
      rw [et]
      simp only
      rw [getD0_set, if_pos rfl, ec]
    · intro x v hv
      simp only at hv
      by_cases hx : t = x
      · subst hx
        rw [AMap.get_set_self] at hv
        simp only [Option.some.injEq] at hv
        right; rw [et]; omega
      · rw [AMap.get_set_ne _ _ (by intro e; simp only [Prod.mk.injEq, true_and] at e; exact hx e)] at hv
        exact .inl hv
    · intro x
      simp only [payOf_one]
      have := sumOf_set x s.claims a t c
      by_cases hx : t = x
      · subst hx
        simp only [if_true] at this ⊢
        omega
      · simp only [if_neg hx] at this ⊢
        exact this

theorem Claimed.trans {s : State} {a : Addr} {share : Nat} {ts us : List Token} {r r' : State × List Pay}
    (h : Claimed s a share ts r) (h' : Claimed r.1 a share us r') :
    Claimed s a share (ts ++ us) (r'.1, r.2 ++ r'.2) := by
  obtain ⟨s1, s2, s3, s4⟩ := h.same
  obtain ⟨s1', s2', s3', s4'⟩ := h'.same
  refine ⟨⟨s1'.trans s1, s2'.trans s2, s3'.trans s3, s4'.trans s4⟩, ?_, ?_, ?_, ?_, ?_, fun hw => h'.wf (h.wf hw), ?_⟩
  · intro p hp
    rcases List.mem_append.1 hp with hp | hp
    · exact h.to p hp
    · exact h'.to p hp
  · intro t
    have h1 := h.mine t
    have h2 := h'.mine t
    simp only [payTo_append]
    omega
  · intro q t hq
    exact (h'.others q t hq).trans (h.others q t hq)
  · intro t ht
    rcases List.mem_append.1 ht with ht | ht
    · obtain ⟨f1, f2⟩ := h.full t ht
      refine ⟨?_, f2⟩
      simp only
      unfold getD0 at f1 ⊢
      cases hv : r'.1.claims.get (a, t) with
      | none =>
        have h2 := h'.mine t
        unfold getD0 at h2
        rw [hv] at h2
        simp only [Option.getD_none] at h2 ⊢
        omega
      | some v =>
        rcases h'.new t v hv with h3 | h3
        · rw [h3] at f1; exact f1
        · rw [s4] at h3; exact h3
    · obtain ⟨f1, f2⟩ := h'.full t ht
      rw [s4] at f1 f2
      exact ⟨f1, f2⟩
  · intro t v hv
    rcases h'.new t v hv with h3 | h3
    · exact h.new t v h3
    · rw [s4] at h3; exact .inr h3
  · intro t
    have h1 := h.sum t
    have h2 := h'.sum t
    simp only [payOf_append]
    omega

theorem claimTokens_ok {s : State} {a : Addr} {share : Nat} {ts : List Token} {r : State × List Pay}
    (h : claimTokens s a share ts = .ok r) : Claimed s a share ts r := by
  induction ts generalizing s r with
  | nil =>
    simp only [claimTokens, Except.ok.injEq] at h
    subst h
    exact ⟨⟨rfl, rfl, rfl, rfl⟩, fun p hp => by simp at hp, fun _ => rfl, fun _ _ _ => rfl,
      fun t ht => by simp at ht, fun _ _ hv => .inl hv, id, fun _ => rfl⟩
  | cons t ts ih =>
    unfold claimTokens at h
    obtain ⟨r1, h1, h⟩ := (bind_ok _ _ _).mp h
    obtain ⟨r2, h2, h⟩ := (bind_ok _ _ _).mp h
    simp only [Except.ok.injEq] at h
    subst h
    exact (claimOne_ok h1).trans (ih h2)

theorem fundOne_ok {s s' : State} {t : Token} {n : Nat} (h : fundOne s t n = .ok s') :
    s'.distHeight = s.distHeight ∧ s'.funding = s.funding ∧ s'.totalPower = s.totalPower ∧ s'.claims = s.claims ∧
    (∀ x, getD0 s'.balances x = getD0 s.balances x + if t = x then n else 0) ∧
    ((∀ x, getD0 s.balances x < U128) → ∀ x, getD0 s'.balances x < U128) := by
  unfold fundOne at h
  split at h
  · rename_i h0
    simp only [Except.ok.injEq] at h
    subst h
    refine ⟨rfl, rfl, rfl, rfl, ?_, id⟩
    intro x
    rw [h0]
    split <;> rfl
  · obtain ⟨b, hb, h⟩ := (bind_ok _ _ _).mp h
    obtain ⟨hlt, hb⟩ := (add128_ok _ _ _).mp hb
    simp only [Except.ok.injEq] at h
    subst h
    refine ⟨rfl, rfl, rfl, rfl, ?_, ?_⟩
    · intro x
      simp only
      rw [getD0_set]
      by_cases hx : t = x
      · subst hx; rw [if_pos rfl, if_pos rfl, hb]
      · rw [if_neg hx, if_neg hx]; rfl
    · intro hx x
      simp only
      rw [getD0_set]
      split
      · omega
      · exact hx x

theorem fundCoins_ok {s s' : State} {cs : List (Nat × Nat)} (h : fundCoins s cs = .ok s') :
    s'.distHeight = s.distHeight ∧ s'.funding = s.funding ∧ s'.totalPower = s.totalPower ∧ s'.claims = s.claims ∧
    (∀ x, getD0 s'.balances x = getD0 s.balances x + coinsOf x cs) ∧
    ((∀ x, getD0 s.balances x < U128) → ∀ x, getD0 s'.balances x < U128) := by
  induction cs generalizing s with
  | nil =>
    simp only [fundCoins, Except.ok.injEq] at h
    subst h
    exact ⟨rfl, rfl, rfl, rfl, fun _ => rfl, id⟩
  | cons c cs ih =>
    obtain ⟨d, n⟩ := c
    unfold fundCoins at h
    obtain ⟨s1, h1, h⟩ := (bind_ok _ _ _).mp h
    obtain ⟨a1, a2, a3, a4, a5, a6⟩ := fundOne_ok h1
    obtain ⟨b1, b2, b3, b4, b5, b6⟩ := ih h
    refine ⟨b1.trans a1, b2.trans a2, b3.trans a3, b4.trans a4, ?_, fun hx => b6 (a6 hx)⟩
    intro x
    rw [b5, a5, coinsOf_cons]
    exact Nat.add_assoc _ _ _

theorem subtract_ok {m : AMap (Addr × Token) Nat} {b b' : AMap Token Nat} (h : subtractClaims m b = .ok b') (t : Token) :
    sumOf t m ≤ getD0 b t ∧ getD0 b' t = getD0 b t - sumOf t m := by
  induction m generalizing b with
  | nil =>
    simp only [subtractClaims, Except.ok.injEq] at h
    subst h
    exact ⟨Nat.zero_le _, rfl⟩
  | cons e m ih =>
    obtain ⟨⟨a, x⟩, n⟩ := e
    unfold subtractClaims at h
    obtain ⟨old, h1, h⟩ := (bind_ok _ _ _).mp h
    obtain ⟨v, h2, h⟩ := (bind_ok _ _ _).mp h
    have h1 := (orErr_ok _ _ _).mp h1
    obtain ⟨h2, h3⟩ := (sub128_ok _ _ _).mp h2
    have e1 : getD0 b x = old := by unfold getD0; rw [h1]; rfl
    have := ih h
    rw [getD0_set] at this
    have e2 : sumOf t (((a, x), n) :: m) = (if x = t then n else 0) + sumOf t m := rfl
    rw [e2]
    by_cases hx : x = t
    · subst hx
      simp only [if_true] at this ⊢
      omega
    · simp only [if_neg hx] at this ⊢
      omega

/-- What a transaction can do. -/
inductive Effect (w : World) (e : Env) : Call → World → List Pay → Prop
  | fund (call : Call) (c : State) (l : Balances) : (∀ a t, claimsFor a t call = false) → starts call = false →
      w.c.funding.isExpired e.block = false →
      c.distHeight = w.c.distHeight → c.funding = w.c.funding → c.totalPower = w.c.totalPower → c.claims = w.c.claims →
      (∀ t, getD0 c.balances t = getD0 w.c.balances t + funds t call) →
      ((∀ x, getD0 w.c.balances x < U128) → ∀ x, getD0 c.balances x < U128) →
      (∀ t, getD0 l (t, w.self) = getD0 w.ledger (t, w.self) + funds t call) →
      Effect w e call { w with c := c, ledger := l } []
  | claim (call : Call) (a : Addr) (share : Nat) (ts : List Token) (c : State) (ps : List Pay) (l : Balances) :
      a ≠ w.self → starts call = false → (∀ t, funds t call = 0) →
      (∀ q t, claimsFor q t call = true → q = a ∧ (t ∈ ts ∨ w.c.balances.get t = none)) →
      w.c.funding.isExpired e.block = true → relativeShare w.c e a = .ok share →
      Claimed w.c a share ts (c, ps) → payAll w.self ps w.ledger = .ok l →
      Effect w e call { w with c := c, ledger := l } ps
  | redistribute (a : Addr) (h : Nat) (b : AMap Token Nat) : subtractClaims w.c.claims w.c.balances = .ok b →
      Effect w e (.redistribute a h) { w with c := { w.c with distHeight := h, balances := b, claims := [] } } []
  | transfer (t : Token) (a b : Addr) (n : Nat) (l : Balances) : a ≠ w.self →
      w.ledger.move (t, a) (t, b) n = .ok l → Effect w e (.transfer t a b n) { w with ledger := l } []

theorem step_effect {w w' : World} {e : Env} {call : Call} {o : List Pay} (h : sys.step w e call = .ok (w', o)) :
    Effect w e call w' o := by
  change step w e call = _ at h
  unfold step at h
  obtain ⟨_, h0, h⟩ := (bind_ok _ _ _).mp h
  have h0 := (require_ok _ _ _).mp h0
  simp only [decide_eq_true_eq] at h0
  cases call with
  | fundNative a coins =>
    simp only at h
    obtain ⟨l, hl, h⟩ := (bind_ok _ _ _).mp h
    obtain ⟨c, hc, h⟩ := (bind_ok _ _ _).mp h
    simp only [Except.ok.injEq, Prod.mk.injEq] at h
    obtain ⟨rfl, rfl⟩ := h
    unfold fundNative at hc
    obtain ⟨_, h1, hc⟩ := (bind_ok _ _ _).mp hc
    have h1 := (require_ok _ _ _).mp h1
    simp only [Bool.not_eq_true'] at h1
    obtain ⟨b1, b2, b3, b4, b5, b6⟩ := fundCoins_ok hc
    exact .fund _ c l (fun _ _ => rfl) rfl h1 b1 b2 b3 b4 b5 b6 (fun t => (pullCoins_get hl h0 t).1)
  | fundCw20 k a n =>
    simp only at h
    obtain ⟨l, hl, h⟩ := (bind_ok _ _ _).mp h
    obtain ⟨c, hc, h⟩ := (bind_ok _ _ _).mp h
    simp only [Except.ok.injEq, Prod.mk.injEq] at h
    obtain ⟨rfl, rfl⟩ := h
    unfold fundCw20 at hc
    obtain ⟨_, h1, hc⟩ := (bind_ok _ _ _).mp hc
    have h1 := (require_ok _ _ _).mp h1
    simp only [Bool.not_eq_true'] at h1
    obtain ⟨b1, b2, b3, b4, b5, b6⟩ := fundOne_ok hc
    have hk : (Token.cw20 k, a) ≠ (Token.cw20 k, w.self) := by
      intro e; simp only [Prod.mk.injEq, true_and] at e; exact h0 e
    refine .fund _ c l (fun _ _ => rfl) rfl h1 b1 b2 b3 b4 b5 b6 (fun t => ?_)
    have := (Ledger.move_get hl hk (t, w.self)).2
    rw [this]
    by_cases ht : Token.cw20 k = t
    · subst ht
      rw [if_neg (Ne.symm hk), if_pos rfl]
      simp only [funds, if_true]
    · have ne : ∀ x y : Addr, (t, x) ≠ (Token.cw20 k, y) := by
        intro x y e; simp only [Prod.mk.injEq] at e; exact ht e.1.symm
      rw [if_neg (ne _ _), if_neg (ne _ _)]
      simp only [funds, if_neg ht]
      rfl
  | claimCw20 a ts =>
    simp only [settle] at h
    obtain ⟨r, hr, h⟩ := (bind_ok _ _ _).mp h
    obtain ⟨l, hl, h⟩ := (bind_ok _ _ _).mp h
    simp only [Except.ok.injEq, Prod.mk.injEq] at h
    obtain ⟨rfl, rfl⟩ := h
    unfold claimList at hr
    obtain ⟨_, h1, hr⟩ := (bind_ok _ _ _).mp hr
    obtain ⟨_, h2, hr⟩ := (bind_ok _ _ _).mp hr
    obtain ⟨s, h3, hr⟩ := (bind_ok _ _ _).mp hr
    have h1 := (require_ok _ _ _).mp h1
    refine .claim _ a s _ r.1 r.2 l h0 rfl (fun _ => rfl) ?_ h1 h3 (claimTokens_ok hr) hl
    intro q t hq
    simp only [claimsFor, Bool.and_eq_true, decide_eq_true_eq, List.contains_eq_mem] at hq
    exact ⟨hq.1.symm, .inl hq.2⟩
  | claimNative a ts =>
    simp only [settle] at h
    obtain ⟨r, hr, h⟩ := (bind_ok _ _ _).mp h
    obtain ⟨l, hl, h⟩ := (bind_ok _ _ _).mp h
    simp only [Except.ok.injEq, Prod.mk.injEq] at h
    obtain ⟨rfl, rfl⟩ := h
    unfold claimList at hr
    obtain ⟨_, h1, hr⟩ := (bind_ok _ _ _).mp hr
    obtain ⟨_, h2, hr⟩ := (bind_ok _ _ _).mp hr
    obtain ⟨s, h3, hr⟩ := (bind_ok _ _ _).mp hr
    have h1 := (require_ok _ _ _).mp h1
    refine .claim _ a s _ r.1 r.2 l h0 rfl (fun _ => rfl) ?_ h1 h3 (claimTokens_ok hr) hl
    intro q t hq
    simp only [claimsFor, Bool.and_eq_true, decide_eq_true_eq, List.contains_eq_mem] at hq
    exact ⟨hq.1.symm, .inl hq.2⟩
  | claimAll a =>
    simp only [settle] at h
    obtain ⟨r, hr, h⟩ := (bind_ok _ _ _).mp h
    obtain ⟨l, hl, h⟩ := (bind_ok _ _ _).mp h
    simp only [Except.ok.injEq, Prod.mk.injEq] at h
    obtain ⟨rfl, rfl⟩ := h
    unfold claimAll at hr
    obtain ⟨_, h1, hr⟩ := (bind_ok _ _ _).mp hr
    obtain ⟨s, h3, hr⟩ := (bind_ok _ _ _).mp hr
    have h1 := (require_ok _ _ _).mp h1
    refine .claim _ a s _ r.1 r.2 l h0 rfl (fun _ => rfl) ?_ h1 h3 (claimTokens_ok hr) hl
    intro q t hq
    simp only [claimsFor, decide_eq_true_eq] at hq
    refine ⟨hq.symm, ?_⟩
    cases hb : w.c.balances.get t with
    | none => exact .inr rfl
    | some v =>
      left
      have hk := (AMap.mem_keys_iff w.c.balances t).2 (by rw [hb]; rfl)
      unfold poolTokens
      simp only [List.mem_append, List.mem_filter]
      cases t with
      | native d => exact .inr ⟨hk, rfl⟩
      | cw20 d => exact .inl ⟨hk, rfl⟩
  | redistribute a x =>
    simp only at h
    obtain ⟨c, hc, h⟩ := (bind_ok _ _ _).mp h
    simp only [Except.ok.injEq, Prod.mk.injEq] at h
    obtain ⟨rfl, rfl⟩ := h
    unfold redistribute at hc
    obtain ⟨b, hb, hc⟩ := (bind_ok _ _ _).mp hc
    simp only [Except.ok.injEq] at hc
    subst hc
    exact .redistribute a x b hb
  | transfer t a b n =>
    simp only at h
    obtain ⟨l, hl, h⟩ := (bind_ok _ _ _).mp h
    simp only [Except.ok.injEq, Prod.mk.injEq] at h
    obtain ⟨rfl, rfl⟩ := h
    exact .transfer t a b n l h0 hl

/-! ## The invariant -/

structure Inv (T : Nat) (P : Nat → Addr → Nat) (w : World) (b : Block) (log : Log) : Prop where
  total : w.c.totalPower = T
  earlier : ∀ t, paidOut t (thisRound log) ≤ paidOut t log
  hist : ∀ t, getD0 w.c.balances t + (paidOut t log - paidOut t (thisRound log)) = funded t log
  mine : ∀ a t, getD0 w.c.claims (a, t) = received a t (thisRound log)
  sum : ∀ t, sumOf t w.c.claims = paidOut t (thisRound log)
  wf : w.c.claims.WF
  phase : (w.c.claims ≠ [] ∨ ∃ e ∈ thisRound log, ∃ a t, claimsFor a t e.call = true) →
    w.c.funding.isExpired b = true
  solvent : ∀ t, getD0 w.c.balances t ≤ getD0 w.ledger (t, w.self) + paidOut t (thisRound log)
  bound : ∀ t, getD0 w.c.balances t < U128
  share : ∀ a t v, w.c.claims.get (a, t) = some v → v = fairShare (getD0 w.c.balances t) (P w.c.distHeight a) T
  full : ∀ a t, (∃ e ∈ thisRound log, claimsFor a t e.call = true) →
    getD0 w.c.claims (a, t) = fairShare (getD0 w.c.balances t) (P w.c.distHeight a) T

theorem inv_init {b : Block} {w : World} (h : sys.init b w) (P : Nat → Addr → Nat) :
    Inv w.c.totalPower P w b [] ∧ w.c.totalPower ≠ 0 := by
  obtain ⟨e, x, d, he, h⟩ := h
  unfold instantiate at h
  obtain ⟨_, h1, h⟩ := (bind_ok _ _ _).mp h
  have h1 := (require_ok _ _ _).mp h1
  simp only [decide_eq_true_eq] at h1
  simp only [Except.ok.injEq] at h
  have hb : w.c.balances = [] := by rw [← h]
  have hc : w.c.claims = [] := by rw [← h]
  refine ⟨⟨rfl, fun _ => Nat.le_refl _, ?_, ?_, ?_, ?_, ?_, ?_, ?_, ?_, ?_⟩, by rw [← h]; exact h1⟩
  · intro t; rw [hb]; rfl
  · intro a t; rw [hc]; rfl
  · intro t; rw [hc]; rfl
  · rw [hc]; exact AMap.WF_nil
  · rintro (h2 | ⟨e, he, _⟩)
    · exact absurd hc h2
    · cases he
  · intro t; rw [hb]; exact Nat.zero_le _
  · intro t; rw [hb]
    have h3 : U128 = 2 ^ 128 := by decide +kernel
    rw [h3]
    exact Nat.two_pow_pos 128
  · intro a t v hv; rw [hc] at hv; cases hv
  · rintro a t ⟨e, he, _⟩; cases he

theorem thisRound_cons_no {e : Ev World Env Call (List Pay)} {log : Log} (h : starts e.call = false) :
    thisRound (e :: log) = e :: thisRound log := by
  simp [thisRound, h]

theorem thisRound_cons_yes {e : Ev World Env Call (List Pay)} {log : Log} (h : starts e.call = true) :
    thisRound (e :: log) = [] := by
  simp [thisRound, h]

theorem paidOut_cons (t : Token) (e : Ev World Env Call (List Pay)) (log : Log) :
    paidOut t (e :: log) = payOf t e.out + paidOut t log := by simp [paidOut]
theorem received_cons (a : Addr) (t : Token) (e : Ev World Env Call (List Pay)) (log : Log) :
    received a t (e :: log) = payTo a t e.out + received a t log := by simp [received]
theorem funded_cons (t : Token) (e : Ev World Env Call (List Pay)) (log : Log) :
    funded t (e :: log) = funds t e.call + funded t log := by simp [funded]

theorem inv_step {T : Nat} {P : Nat → Addr → Nat} {w w' : World} {b : Block} {e : Env} {call : Call} {o : List Pay}
    {log : Log} (ih : Inv T P w b log) (hb : b.le e.block)
    (hP : ∀ a, e.power a w.c.distHeight = P w.c.distHeight a) (h : sys.step w e call = .ok (w', o)) :
    Inv T P w' e.block (⟨w, e, call, o, w'⟩ :: log) := by
  have he := step_effect h
  have hexp : (w.c.claims ≠ [] ∨ ∃ e ∈ thisRound log, ∃ a t, claimsFor a t e.call = true) →
      w.c.funding.isExpired e.block = true := fun hh => Expiration.isExpired_mono hb (ih.phase hh)
  cases he with
  | fund _ c l hcl hst hex e1 e2 e3 e4 e5 e6 e7 =>
    rw [hex] at hexp
    have hnone : w.c.claims = [] := by
      cases hc : w.c.claims with
      | nil => rfl
      | cons x xs => exact absurd (hexp (.inl (by rw [hc]; simp))) (by simp)
    have hno : ¬ ∃ e ∈ thisRound log, ∃ a t, claimsFor a t e.call = true :=
      fun hh => absurd (hexp (.inr hh)) (by simp)
    have hno' : ¬ ∃ ev ∈ thisRound (⟨w, e, call, [], { w with c := c, ledger := l }⟩ :: log),
        ∃ a t, claimsFor a t ev.call = true := by
      rw [thisRound_cons_no hst]
      rintro ⟨ev, hev, a, t, hh⟩
      rcases List.mem_cons.1 hev with rfl | hev
      · rw [hcl] at hh; cases hh
      · exact hno ⟨ev, hev, a, t, hh⟩
    refine ⟨e3.trans ih.total, ?_, ?_, ?_, ?_, ?_, ?_, ?_, e6 ih.bound, ?_, ?_⟩
    · intro t
      rw [thisRound_cons_no hst, paidOut_cons, paidOut_cons]
      have := ih.earlier t
      omega
    · intro t
      have h1 := ih.hist t
      have h2 := ih.earlier t
      rw [thisRound_cons_no hst, paidOut_cons, paidOut_cons, funded_cons]
      simp only [e5, payOf_nil]
      omega
    · intro a t
      have h1 := ih.mine a t
      rw [thisRound_cons_no hst, received_cons]
      simp only [e4, payTo_nil]
      omega
    · intro t
      have h1 := ih.sum t
      rw [thisRound_cons_no hst, paidOut_cons]
      simp only [e4, payOf_nil]
      omega
    · simp only [e4]; exact ih.wf
    · rintro (h2 | h2)
      · simp only [e4] at h2; exact absurd hnone h2
      · exact absurd h2 hno'
    · intro t
      have h1 := ih.solvent t
      rw [thisRound_cons_no hst, paidOut_cons]
      simp only [e5, e7, payOf_nil]
      omega
    · intro a t v hv
      simp only [e4] at hv
      rw [hnone] at hv
      cases hv
    · rintro a t ⟨ev, hev, hh⟩
      exact absurd ⟨ev, hev, a, t, hh⟩ hno'
  | claim _ a share ts c _ l hself hst hf hcov hex hsh hc hl =>
    obtain ⟨s1, s2, s3, s4⟩ := hc.same
    simp only at s1 s2 s3 s4
    obtain ⟨_, hs, _⟩ := multiplyRatio_ok hsh
    rw [hP a, ih.total] at hs
    have hshare : ∀ t, shareOf (getD0 w.c.balances t) share =
        fairShare (getD0 w.c.balances t) (P w.c.distHeight a) T := by
      intro t
      unfold shareOf fairShare
      rw [hs, dec_one]
    have hto : ∀ p ∈ o, p.to ≠ w.self := fun p hp => by rw [hc.to p hp]; exact hself
    refine ⟨s3.trans ih.total, ?_, ?_, ?_, ?_, hc.wf ih.wf, ?_, ?_, ?_, ?_, ?_⟩
    · intro t
      rw [thisRound_cons_no hst, paidOut_cons, paidOut_cons]
      have := ih.earlier t
      omega
    · intro t
      have h1 := ih.hist t
      have h2 := ih.earlier t
      rw [thisRound_cons_no hst, paidOut_cons, paidOut_cons, funded_cons]
      simp only [s4, hf]
      omega
    · intro q t
      rw [thisRound_cons_no hst, received_cons]
      by_cases hq : q = a
      · subst hq
        have h1 := ih.mine q t
        have h2 := hc.mine t
        simp only at h2 ⊢
        omega
      · have h1 := ih.mine q t
        have h2 := hc.others q t hq
        have h3 : payTo q t o = 0 := by
          have : ∀ ps : List Pay, (∀ p ∈ ps, p.to = a) → payTo q t ps = 0 := by
            intro ps hps
            induction ps with
            | nil => rfl
            | cons p ps ih' =>
              rw [payTo_cons, ih' (fun x hx => hps x (List.mem_cons_of_mem _ hx)),
                if_neg (fun hh => hq (hh.1.symm.trans (hps p (List.mem_cons_self ..))))]
          exact this o hc.to
        unfold getD0 at h1 ⊢
        simp only at h2 ⊢
        rw [h2]
        omega
    · intro t
      have h1 := ih.sum t
      have h2 := hc.sum t
      rw [thisRound_cons_no hst, paidOut_cons]
      simp only at h2 ⊢
      omega
    · intro _
      simp only [s2]
      exact hex
    · intro t
      have h1 := ih.solvent t
      obtain ⟨h2, h3, _⟩ := payAll_get hl hto t
      rw [thisRound_cons_no hst, paidOut_cons]
      simp only [s4]
      omega
    · intro t; simp only [s4]; exact ih.bound t
    · intro q t v hv
      simp only [s1, s4] at hv ⊢
      by_cases hq : q = a
      · subst hq
        rcases hc.new t v hv with h3 | h3
        · exact ih.share q t v h3
        · rw [h3, hshare]
      · have := hc.others q t hq
        simp only at this
        rw [this] at hv
        exact ih.share q t v hv
    · rintro q t ⟨ev, hev, hh⟩
      rw [thisRound_cons_no hst] at hev
      simp only [s1, s4]
      have old : (∃ e ∈ thisRound log, claimsFor q t e.call = true) →
          getD0 c.claims (q, t) = fairShare (getD0 w.c.balances t) (P w.c.distHeight q) T := by
        intro hx
        have h1 := ih.full q t hx
        by_cases hq : q = a
        · subst hq
          have h2 := hc.mine t
          simp only at h2
          unfold getD0 at h1 h2 ⊢
          cases hv : c.claims.get (q, t) with
          | none =>
            rw [hv] at h2
            simp only [Option.getD_none] at h2 ⊢
            omega
          | some v =>
            rcases hc.new t v hv with h3 | h3
            · rw [h3] at h1; exact h1
            · rw [hshare] at h3; exact h3
        · have := hc.others q t hq
          simp only at this
          unfold getD0 at h1 ⊢
          rw [this]; exact h1
      rcases List.mem_cons.1 hev with rfl | hev
      · obtain ⟨rfl, h4⟩ := hcov q t hh
        rcases h4 with h4 | h4
        · have := (hc.full t h4).1
          simp only at this
          rw [this, hshare]
        · have hz : getD0 w.c.balances t = 0 := by unfold getD0; rw [h4]; rfl
          rw [hz]
          have hz2 : ∀ x y, fairShare 0 x y = 0 := by intro x y; simp [fairShare]
          rw [hz2]
          -- nothing was ever claimed of a token that is not in the pool
          unfold getD0
          cases hv : c.claims.get (q, t) with
          | none => rfl
          | some v =>
            have h5 : v = fairShare (getD0 w.c.balances t) (P w.c.distHeight q) T := by
              rcases hc.new t v hv with h3 | h3
              · exact ih.share q t v h3
              · rw [h3, hshare]
            rw [hz, hz2] at h5
            exact h5
      · exact old ⟨ev, hev, hh⟩
  | redistribute a x bal hbal =>
    have hst : starts (Call.redistribute a x) = true := rfl
    refine ⟨ih.total, ?_, ?_, ?_, ?_, AMap.WF_nil, ?_, ?_, ?_, ?_, ?_⟩
    · intro t; rw [thisRound_cons_yes hst]; exact Nat.zero_le _
    · intro t
      have h1 := ih.hist t
      have h2 := ih.earlier t
      have h3 := subtract_ok hbal t
      have h4 := ih.sum t
      rw [thisRound_cons_yes hst, paidOut_cons, funded_cons]
      simp only [payOf_nil, funds, paidOut, List.map_nil, List.sum_nil] at h1 h2 h3 h4 ⊢
      omega
    · intro q t; rw [thisRound_cons_yes hst]; rfl
    · intro t; rw [thisRound_cons_yes hst]; rfl
    · rintro (h2 | ⟨ev, hev, _⟩)
      · exact absurd rfl h2
      · rw [thisRound_cons_yes hst] at hev; cases hev
    · intro t
      have h1 := ih.solvent t
      have h3 := subtract_ok hbal t
      have h4 := ih.sum t
      rw [thisRound_cons_yes hst]
      simp only [paidOut, List.map_nil, List.sum_nil] at h1 h4 ⊢
      omega
    · intro t
      have h1 := ih.bound t
      have h3 := subtract_ok hbal t
      simp only
      omega
    · intro q t v hv; cases hv
    · rintro q t ⟨ev, hev, _⟩
      rw [thisRound_cons_yes hst] at hev; cases hev
  | transfer t a c n l ha hl =>
    have hst : starts (Call.transfer t a c n) = false := rfl
    have hlog : ∀ q x, (∃ ev ∈ thisRound (⟨w, e, Call.transfer t a c n, [], { w with ledger := l }⟩ :: log),
        claimsFor q x ev.call = true) → ∃ ev ∈ thisRound log, claimsFor q x ev.call = true := by
      rintro q x ⟨ev, hev, hh⟩
      rw [thisRound_cons_no hst] at hev
      rcases List.mem_cons.1 hev with rfl | hev
      · cases hh
      · exact ⟨ev, hev, hh⟩
    refine ⟨ih.total, ?_, ?_, ?_, ?_, ih.wf, ?_, ?_, ih.bound, ih.share, ?_⟩
    · intro x
      rw [thisRound_cons_no hst, paidOut_cons, paidOut_cons]
      have := ih.earlier x
      omega
    · intro x
      have h1 := ih.hist x
      have h2 := ih.earlier x
      rw [thisRound_cons_no hst, paidOut_cons, paidOut_cons, funded_cons]
      simp only [payOf_nil, funds]
      omega
    · intro q x
      have h1 := ih.mine q x
      rw [thisRound_cons_no hst, received_cons]
      simp only [payTo_nil]
      omega
    · intro x
      have h1 := ih.sum x
      rw [thisRound_cons_no hst, paidOut_cons]
      simp only [payOf_nil]
      omega
    · rintro (h2 | ⟨ev, hev, q, x, hh⟩)
      · exact hexp (.inl h2)
      · obtain ⟨ev', h3, h4⟩ := hlog q x ⟨ev, hev, hh⟩
        exact hexp (.inr ⟨ev', h3, q, x, h4⟩)
    · intro x
      have h1 := ih.solvent x
      have h2 := Ledger.move_other (q := (x, w.self)) hl (by
        intro e; simp only [Prod.mk.injEq] at e; exact ha e.2.symm)
      rw [thisRound_cons_no hst, paidOut_cons]
      simp only [payOf_nil]
      omega
    · intro q x hx
      exact ih.full q x (hlog q x hx)

theorem inv_run {P : Nat → Addr → Nat} {b0 b : Block} {w0 w : World} {log : Log} (h0 : sys.init b0 w0)
    (hr : sys.Run w0 b0 log w b) (hP : Answers P log) : Inv w0.c.totalPower P w b log := by
  induction hr with
  | refl => exact (inv_init h0 P).1
  | step hr hb hs ih =>
    refine inv_step (ih (fun e he => hP e (List.mem_cons_of_mem _ he))) hb ?_ hs
    intro a
    exact hP _ (List.mem_cons_self ..) a

end Verif.FundDistributor
