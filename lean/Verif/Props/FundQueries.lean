import Verif.Model.FundQueries
import Verif.Proofs.Listings
import Verif.Props.FundDistributor
/-!
# C108: what a fund distributor shows is what it pays
-/

namespace Verif.FundDistributor
open Verif Verif.Paginate Verif.Listings
open Verif.Spec.FundDistributor
open Verif.Spec.Listings
open Verif.Spec.Paginate (InOrder)

variable {P : Nat → Addr → Nat} {b0 b : Block} {w0 w w' : World} {log : Log}

/-! ## The maps of the contract have one entry for each token -/

theorem wf_fundOne {s s' : State} {t : Token} {n : Nat} (h : fundOne s t n = .ok s') (hw : s.balances.WF) :
    s'.balances.WF := by
  unfold fundOne at h
  split at h
  · simp only [Except.ok.injEq] at h; rw [← h]; exact hw
  · simp only [bind_ok, Except.ok.injEq] at h
    obtain ⟨x, _, rfl⟩ := h
    exact AMap.WF_set hw _ _

theorem wf_fundCoins {coins : List (Nat × Nat)} {s s' : State} (h : fundCoins s coins = .ok s') (hw : s.balances.WF) :
    s'.balances.WF := by
  induction coins generalizing s with
  | nil => simp only [fundCoins, Except.ok.injEq] at h; rw [← h]; exact hw
  | cons c coins ih =>
    obtain ⟨d, n⟩ := c
    simp only [fundCoins, bind_ok] at h
    obtain ⟨s1, h1, h2⟩ := h
    exact ih h2 (wf_fundOne h1 hw)

theorem wf_subtract {cl : AMap (Addr × Token) Nat} {m m' : AMap Token Nat} (h : subtractClaims cl m = .ok m')
    (hw : m.WF) : m'.WF := by
  induction cl generalizing m with
  | nil => simp only [subtractClaims, Except.ok.injEq] at h; rw [← h]; exact hw
  | cons c cl ih =>
    obtain ⟨⟨a, t⟩, n⟩ := c
    simp only [subtractClaims, bind_ok] at h
    obtain ⟨_, _, x, _, h2⟩ := h
    exact ih h2 (AMap.WF_set hw _ _)

theorem balances_WF (h0 : sys.init b0 w0) (hr : sys.Run w0 b0 log w b) : w.c.balances.WF := by
  induction hr with
  | refl =>
    obtain ⟨e, x, d, _, h⟩ := h0
    simp only [instantiate, bind_ok, require_ok, Except.ok.injEq] at h
    obtain ⟨_, _, h⟩ := h
    rw [← h]; exact AMap.WF_nil
  | step hr hb hs ih =>
    rename_i s1 s2 b2 lg env call out
    cases call with
    | fundNative a coins =>
      simp only [sys, step, fundNative, bind_ok, Except.ok.injEq, Prod.mk.injEq] at hs
      obtain ⟨_, _, l, _, c, ⟨_, _, h⟩, rfl, _⟩ := hs
      exact wf_fundCoins h ih
    | fundCw20 t a n =>
      simp only [sys, step, fundCw20, bind_ok, Except.ok.injEq, Prod.mk.injEq] at hs
      obtain ⟨_, _, l, _, c, ⟨_, _, h⟩, rfl, _⟩ := hs
      exact wf_fundOne h ih
    | redistribute a h =>
      simp only [sys, step, redistribute, bind_ok, Except.ok.injEq, Prod.mk.injEq] at hs
      obtain ⟨_, _, c, ⟨m, hm, rfl⟩, rfl, _⟩ := hs
      exact wf_subtract hm ih
    | transfer t a c n =>
      simp only [sys, step, bind_ok, Except.ok.injEq, Prod.mk.injEq] at hs
      obtain ⟨_, _, l, _, rfl, _⟩ := hs
      exact ih
    | claimCw20 a ts =>
      simp only [sys, step, claimList, settle, bind_ok, Except.ok.injEq, Prod.mk.injEq] at hs
      obtain ⟨_, _, r, ⟨_, _, _, _, sh, _, h⟩, l, _, rfl, _⟩ := hs
      simp only [(claimTokens_ok h).same.2.2.2]; exact ih
    | claimNative a ts =>
      simp only [sys, step, claimList, settle, bind_ok, Except.ok.injEq, Prod.mk.injEq] at hs
      obtain ⟨_, _, r, ⟨_, _, _, _, sh, _, h⟩, l, _, rfl, _⟩ := hs
      simp only [(claimTokens_ok h).same.2.2.2]; exact ih
    | claimAll a =>
      simp only [sys, step, claimAll, settle, bind_ok, Except.ok.injEq, Prod.mk.injEq] at hs
      obtain ⟨_, _, r, ⟨_, _, sh, _, h⟩, l, _, rfl, _⟩ := hs
      simp only [(claimTokens_ok h).same.2.2.2]; exact ih

theorem numberOf_ofKind (k : Bool) (x : Nat) : numberOf k (ofKind k x) = some x := by cases k <;> rfl

theorem numberOf_eq {k : Bool} {t : Token} {x : Nat} (h : numberOf k t = some x) : t = ofKind k x := by
  cases k <;> cases t <;> simp_all [numberOf, ofKind]

theorem mem_poolOf {k : Bool} {s : State} {x v : Nat} : (x, v) ∈ poolOf k s ↔ (ofKind k x, v) ∈ s.balances := by
  unfold poolOf
  rw [List.mem_filterMap]
  constructor
  · rintro ⟨⟨t, n⟩, h1, h2⟩
    simp only [Option.map_eq_some_iff, Prod.mk.injEq] at h2
    obtain ⟨y, h3, rfl, rfl⟩ := h2
    rw [← numberOf_eq h3]; exact h1
  · intro h
    exact ⟨_, h, by simp [numberOf_ofKind]⟩

theorem poolOf_WF {k : Bool} {s : State} (hw : s.balances.WF) : (poolOf k s).WF := by
  unfold AMap.WF at *
  unfold poolOf
  generalize s.balances = m at hw
  induction m with
  | nil => exact List.nodup_nil
  | cons x m ih =>
    rw [List.map_cons, List.nodup_cons] at hw
    rw [List.filterMap_cons]
    cases hx : numberOf k x.1 with
    | none => simp only [Option.map_none]; exact ih hw.2
    | some y =>
      simp only [Option.map_some, List.map_cons, List.nodup_cons]
      refine ⟨?_, ih hw.2⟩
      intro hm
      obtain ⟨⟨y', n⟩, h1, rfl⟩ := List.mem_map.1 hm
      rw [List.mem_filterMap] at h1
      obtain ⟨⟨t, v⟩, h2, h3⟩ := h1
      simp only [Option.map_eq_some_iff, Prod.mk.injEq] at h3
      obtain ⟨z, h4, rfl, rfl⟩ := h3
      refine hw.1 (List.mem_map.2 ⟨_, h2, ?_⟩)
      rw [numberOf_eq hx]; exact numberOf_eq h4

theorem get_poolOf {k : Bool} {s : State} (hw : s.balances.WF) (x : Nat) :
    (poolOf k s).get x = s.balances.get (ofKind k x) := by
  cases h : (poolOf k s).get x with
  | some v => rw [AMap.get_of_mem hw (mem_poolOf.1 (AMap.mem_of_get h))]
  | none =>
    cases h2 : s.balances.get (ofKind k x) with
    | none => rfl
    | some v =>
      have := AMap.get_of_mem (poolOf_WF (k := k) hw) (mem_poolOf.2 (AMap.mem_of_get h2))
      rw [h] at this; cases this

/-- What is still owed to a member of a token of the pool. -/
theorem entry_live (h0 : sys.init b0 w0) (hr : sys.Run w0 b0 log w b) (hP : Answers P log) (hW : Within P w log)
    {e : Env} (hPe : ∀ a, e.power a w.c.distHeight = P w.c.distHeight a) (a : Addr) :
    ∃ share, relativeShare w.c e a = .ok share ∧ ∀ t,
      entitlement (getD0 w.c.balances t) share (getD0 w.c.claims (a, t)) =
        .ok (fairShare (pool t log) (P w.c.distHeight a) w0.c.totalPower - received a t (thisRound log)) := by
  have hi := inv_run h0 hr hP
  have hT := (inv_init h0 P).2
  have hTp : 0 < w0.c.totalPower := Nat.pos_of_ne_zero hT
  have hpa : P w.c.distHeight a ≤ w0.c.totalPower := by
    have := hW _ (.inl rfl) [a] (by simp)
    rw [hi.total] at this
    simpa using this
  have hle : P w.c.distHeight a * DEC_ONE / w0.c.totalPower ≤ DEC_ONE := by
    have := Nat.div_le_div_right (c := w0.c.totalPower) (Nat.mul_le_mul_right DEC_ONE hpa)
    rwa [Nat.mul_div_cancel_left _ hTp] at this
  have hd : DEC_ONE < U128 := by decide +kernel
  refine ⟨P w.c.distHeight a * DEC_ONE / w0.c.totalPower, ?_, ?_⟩
  · unfold relativeShare multiplyRatio
    rw [hPe, hi.total, if_neg hT, if_pos (by omega)]
  · intro t
    have es : shareOf (getD0 w.c.balances t) (P w.c.distHeight a * DEC_ONE / w0.c.totalPower) =
        fairShare (getD0 w.c.balances t) (P w.c.distHeight a) w0.c.totalPower := by unfold shareOf fairShare; rw [dec_one]
    rw [entitlement_live (hi.bound t) hle, es, pool_eq hi, hi.mine]
    rw [es]
    unfold getD0
    cases hv : w.c.claims.get (a, t) with
    | none => exact Nat.zero_le _
    | some v => exact Nat.le_of_eq (hi.share a t v hv)

/-- **C108.** Following the pages of `NativeEntitlements` or `CW20Entitlements` for a member, of any size, shows every
token that is in the pool, once, each with the member's share of the pool less what the member has received. -/
theorem C108_entitlements (h0 : sys.init b0 w0) (hr : sys.Run w0 b0 log w b) (hP : Answers P log) (hW : Within P w log)
    {e : Env} (hPe : ∀ a, e.power a w.c.distHeight = P w.c.distHeight a) (cw20 : Bool) (a : Addr) (limit : Option Nat)
    (hl : limit ≠ some 0) :
    ∃ l, Pages (fun start => entitlementsPage cw20 w.c e a start limit) none l ∧ InOrder .desc l ∧
      (∀ x n, (x, n) ∈ l → received a (ofKind cw20 x) (thisRound log) + n =
        fairShare (pool (ofKind cw20 x) log) (P w.c.distHeight a) w0.c.totalPower) ∧
      (∀ x, 0 < pool (ofKind cw20 x) log → ∃ n, (x, n) ∈ l) := by
  have hi := inv_run h0 hr hP
  have hwf := poolOf_WF (k := cw20) (balances_WF h0 hr)
  obtain ⟨share, hs, hent⟩ := entry_live h0 hr hP hW hPe a
  let g : Nat × Nat → Nat := fun x =>
    fairShare (pool (ofKind cw20 x.1) log) (P w.c.distHeight a) w0.c.totalPower -
      received a (ofKind cw20 x.1) (thisRound log)
  have hpage : ∀ start, entitlementsPage cw20 w.c e a start limit =
      .ok ((paginateMap (poolOf cw20 w.c) start limit .desc).map (fun x => (x.1, g x))) := by
    intro start
    unfold entitlementsPage
    rw [hs, ok_bind]
    refine mapM_ok ?_
    rintro ⟨x, v⟩ hx
    have hx : (x, v) ∈ range (poolOf cw20 w.c) start .desc := by
      unfold paginateMap at hx
      cases limit with
      | none => exact hx
      | some n => exact List.mem_of_mem_take hx
    have eb : getD0 w.c.balances (ofKind cw20 x) = v := by
      unfold getD0
      rw [AMap.get_of_mem (balances_WF h0 hr) (mem_poolOf.1 (mem_range.1 hx).1)]; rfl
    have := hent (ofKind cw20 x)
    rw [eb] at this
    simp only [entitlementEntry, this, ok_bind, g]
  have key : Pages (fun start => entitlementsPage cw20 w.c e a start limit) none
      ((range (poolOf cw20 w.c) none .desc).map (fun x => (x.1, g x))) := by
    cases limit with
    | some n => exact pages_keyed hwf (n := n) (by cases n <;> simp at hl ⊢) hpage none
    | none =>
      refine pages_keyed hwf (n := (poolOf cw20 w.c).length + 1) (by omega) (fun start => ?_) none
      simp only [hpage, paginateMap]
      rw [List.take_of_length_le (Nat.le_succ_of_le range_length)]
  refine ⟨_, key, ?_, ?_, ?_⟩
  · have := range_inOrder hwf none .desc
    unfold InOrder at this ⊢
    simp only [List.pairwise_map] at this ⊢
    exact this
  · intro x n hx
    obtain ⟨⟨y, v⟩, h1, h2⟩ := List.mem_map.1 hx
    simp only [Prod.mk.injEq, g] at h2
    obtain ⟨rfl, rfl⟩ := h2
    rcases (C43_share h0 hr hP a (ofKind cw20 y)).1 with h3 | h3 <;> omega
  · intro x hx
    rw [pool_eq hi] at hx
    cases hb : w.c.balances.get (ofKind cw20 x) with
    | none => unfold getD0 at hx; rw [hb] at hx; simp at hx
    | some v =>
      exact ⟨_, List.mem_map.2 ⟨(x, v), (mem_all hwf).2 (by rw [get_poolOf (balances_WF h0 hr), hb]), rfl⟩⟩

/-- **C108.** A claim of everything pays exactly what the pages show, token by token, and nothing of a token that they
do not show. -/
theorem C108_claim (h0 : sys.init b0 w0) (hr : sys.Run w0 b0 log w b) (hP : Answers P log) (hW : Within P w log)
    {e : Env} (hPe : ∀ a, e.power a w.c.distHeight = P w.c.distHeight a) (cw20 : Bool) (a : Addr) (limit : Option Nat)
    (hl : limit ≠ some 0) {l : List (Nat × Nat)}
    (hpg : Pages (fun start => entitlementsPage cw20 w.c e a start limit) none l) {o : List Pay}
    (hs : sys.step w e (.claimAll a) = .ok (w', o)) :
    (∀ x n, (x, n) ∈ l → payTo a (ofKind cw20 x) o = n) ∧
    (∀ x, (∀ n, (x, n) ∉ l) → payTo a (ofKind cw20 x) o = 0) := by
  obtain ⟨l', h1, h2, h3, h4⟩ := C108_entitlements h0 hr hP hW hPe cw20 a limit hl
  have := pages_unique hpg h1
  subst this
  have hi := inv_run h0 hr hP
  have hq : ∀ x, ∃ n, queryEntitlement w.c e a (ofKind cw20 x) = .ok n ∧
      payTo a (ofKind cw20 x) o = n ∧ received a (ofKind cw20 x) (thisRound log) + n =
        fairShare (pool (ofKind cw20 x) log) (P w.c.distHeight a) w0.c.totalPower := by
    intro x
    obtain ⟨share, hsh, hent⟩ := entry_live h0 hr hP hW hPe a
    have hqe : ∃ n, queryEntitlement w.c e a (ofKind cw20 x) = .ok n :=
      ⟨_, by unfold queryEntitlement; rw [hsh, ok_bind]; exact hent _⟩
    obtain ⟨n, hqe⟩ := hqe
    have h5 := C43_query h0 hr hP hPe hqe
    exact ⟨n, hqe, h5.2 _ _ _ (by simp [claimsFor]) hs, h5.1⟩
  constructor
  · intro x n hx
    obtain ⟨m, _, hm, hf⟩ := hq x
    have := h3 x n hx
    omega
  · intro x hx
    obtain ⟨m, _, hm, hf⟩ := hq x
    have hz : pool (ofKind cw20 x) log = 0 := by
      rcases Nat.eq_zero_or_pos (pool (ofKind cw20 x) log) with h | h
      · exact h
      · obtain ⟨n, hn⟩ := h4 x h
        exact absurd hn (hx n)
    rw [hz] at hf
    have : fairShare 0 (P w.c.distHeight a) w0.c.totalPower = 0 := by simp [fairShare]
    omega

/-- **C108.** `NativeDenoms` and `CW20Tokens` show every token of the pool, once, with the size of the pool: all that was
funded less what earlier rounds paid out. -/
theorem C108_pool (h0 : sys.init b0 w0) (hr : sys.Run w0 b0 log w b) (hP : Answers P log) (cw20 : Bool) :
    InOrder .asc (poolList cw20 w.c) ∧
    (∀ x n, (x, n) ∈ poolList cw20 w.c → n = pool (ofKind cw20 x) log) ∧
    (∀ x, 0 < pool (ofKind cw20 x) log → (x, pool (ofKind cw20 x) log) ∈ poolList cw20 w.c) := by
  have hi := inv_run h0 hr hP
  have hb := balances_WF h0 hr
  have hwf := poolOf_WF (k := cw20) hb
  have h1 : ∀ x n, (x, n) ∈ poolList cw20 w.c ↔ w.c.balances.get (ofKind cw20 x) = some n := by
    intro x n; unfold poolList; rw [mem_all hwf, get_poolOf hb]
  refine ⟨range_inOrder hwf none .asc, ?_, ?_⟩
  · intro x n hx
    rw [h1] at hx
    rw [pool_eq hi]; unfold getD0; rw [hx]; rfl
  · intro x hx
    rw [h1]
    rw [pool_eq hi] at hx ⊢
    unfold getD0 at hx ⊢
    cases hv : w.c.balances.get (ofKind cw20 x) with
    | none => rw [hv] at hx; simp at hx
    | some v => rfl

/-- The world of `exW_run` with another denomination. -/
def exW3 : World := { exW with ledger := ((.native 8, 50), 50) :: exW.ledger }

theorem exW3_init : sys.init ⟨10, 0⟩ exW3 := ⟨exE ⟨10, 0⟩, 5, .height 10, rfl, by decide +kernel⟩

/-- C108: an example. Two denominations and a token in the pool; member 2, with 7 of 10, has claimed one denomination. -/
theorem C108_example : ∃ w b log, sys.Run exW3 ⟨10, 0⟩ log w b ∧
    (decide (poolList false w.c = [(7, 101), (8, 50)] ∧ poolList true w.c = [(30, 40)] ∧
      entitlementsPage false w.c (exE b) 2 none (some 1) = .ok [(8, 35)] ∧
      entitlementsPage false w.c (exE b) 2 (some 8) (some 1) = .ok [(7, 0)] ∧
      entitlementsPage false w.c (exE b) 2 (some 7) (some 1) = .ok [] ∧
      entitlementsPage true w.c (exE b) 2 none none = .ok [(30, 28)] ∧
      (sys.step w (exE b) (.claimAll 2)).map Prod.snd = .ok [⟨2, .cw20 30, 28⟩, ⟨2, .native 8, 35⟩])) = true :=
  Sys.check_run (M := sys) (s := exW3) (b := ⟨10, 0⟩)
    (cs := [(exE ⟨11, 0⟩, .fundNative 50 [(7, 101), (8, 50)]), (exE ⟨12, 0⟩, .fundCw20 30 50 40),
      (exE ⟨20, 0⟩, .claimNative 2 [7])])
    (p := fun w b _ => decide (poolList false w.c = [(7, 101), (8, 50)] ∧ poolList true w.c = [(30, 40)] ∧
      entitlementsPage false w.c (exE b) 2 none (some 1) = .ok [(8, 35)] ∧
      entitlementsPage false w.c (exE b) 2 (some 8) (some 1) = .ok [(7, 0)] ∧
      entitlementsPage false w.c (exE b) 2 (some 7) (some 1) = .ok [] ∧
      entitlementsPage true w.c (exE b) 2 none none = .ok [(30, 28)] ∧
      (sys.step w (exE b) (.claimAll 2)).map Prod.snd = .ok [⟨2, .cw20 30, 28⟩, ⟨2, .native 8, 35⟩])) (by decide +kernel)

end Verif.FundDistributor
