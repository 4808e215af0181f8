import Verif.Proofs.NftStaked
import Verif.Props.ActiveThreshold
import Mathlib.Data.List.Perm.Subperm
/-!
# C30, C32, C33: dao-voting-cw721-staked
-/

namespace Verif.NftStaked
open Verif Verif.Active Verif.Spec.NftStaked
open Verif.Cw20Stake (validateDuration)

/-! ## C30 -/

/-- **C30.** The voting powers and the total reported for a height are those after the last call below that
height, whatever is called from then on. -/
theorem C30_nft_history {w w' : World} {b b' : Block} {log log' : List (Ev World Block Call Out)}
    (h : sys.Reach w b log) (hr : sys.Run w b log' w' b') {x : Nat} (hb : b.height < x)
    (hx : ∀ e ∈ log', x ≤ e.env.height) (a : Addr) :
    powerAt w'.c a x = w.c.balanceOf a ∧ totalPowerAt w'.c x = w.c.total := by
  unfold powerAt totalPowerAt
  rw [snapshotted.1.current h hr hb hx a, snapshotted.2.current h hr hb hx ()]
  exact ⟨rfl, rfl⟩

/-- **C30.** What is reported for a height does not change through calls at or above that height. -/
theorem C30_nft_stable {w w' : World} {b b' : Block} {log log' : List (Ev World Block Call Out)}
    (h : sys.Reach w b log) (hr : sys.Run w b log' w' b') {x : Nat}
    (hx : ∀ e ∈ log', x ≤ e.env.height) (a : Addr) :
    powerAt w'.c a x = powerAt w.c a x ∧ totalPowerAt w'.c x = totalPowerAt w.c x := by
  unfold powerAt totalPowerAt
  rw [snapshotted.1.stable h hr hx a, snapshotted.2.stable h hr hx ()]
  exact ⟨rfl, rfl⟩

/-! ## C33 -/

theorem mem_stakedNfts {s : State} {a : Addr} {t : Tok} :
    t ∈ s.stakedNfts a ↔ s.staked.get (a, t) = some () := by
  unfold State.stakedNfts
  rw [List.mem_map]
  constructor
  · rintro ⟨⟨⟨x, y⟩, u⟩, he, rfl⟩
    rw [List.mem_filter] at he
    have hx := of_decide_eq_true he.2
    simp only at hx
    subst hx
    have := (AMap.mem_keys_iff s.staked (x, y)).1 (List.mem_map.2 ⟨_, he.1, rfl⟩)
    cases hg : s.staked.get (x, y) with
    | none => rw [hg] at this; cases this
    | some u => rfl
  · intro h
    exact ⟨((a, t), ()), List.mem_filter.2 ⟨AMap.mem_of_get h, by simp⟩, rfl⟩

theorem stakedNfts_nodup {s : State} (hw : s.staked.WF) (a : Addr) : (s.stakedNfts a).Nodup := by
  unfold State.stakedNfts
  unfold AMap.WF at hw
  rw [List.nodup_map_iff_inj_on]
  · intro x hx y hy hxy
    rw [List.mem_filter] at hx hy
    have h1 : x.1 = y.1 := Prod.ext ((of_decide_eq_true hx.2).trans (of_decide_eq_true hy.2).symm) hxy
    exact List.inj_on_of_nodup_map hw hx.1 hy.1 h1
  · exact List.Nodup.filter _ (List.Nodup.of_map _ hw)

/-- **C33.** In every reachable state an address's current power is the number of different NFTs listed as
staked by it. -/
theorem C33_power {w : World} {b : Block} {log : List (Ev World Block Call Out)} (h : sys.Reach w b log)
    (a : Addr) : w.c.balanceOf a = (w.c.stakedNfts a).length ∧ (w.c.stakedNfts a).Nodup := by
  have hi := inv_reach h
  exact ⟨by rw [hi.bal, count_eq], stakedNfts_nodup hi.wf a⟩

/-- **C33.** The current total is the number of all staked NFTs: the sum of the powers over any list of
addresses without repetition that has everybody with power. -/
theorem C33_total {w : World} {b : Block} {log : List (Ev World Block Call Out)} (h : sys.Reach w b log)
    {L : List Addr} (hL : L.Nodup) (hc : ∀ a, a ∉ L → w.c.stakedNfts a = []) :
    w.c.total = (L.map (fun a => (w.c.stakedNfts a).length)).sum := by
  have hi := inv_reach h
  have e : ∀ a, (w.c.stakedNfts a).length = getD0 w.c.balances.cur a := by
    intro a; rw [← (C33_power h a).1]; rfl
  rw [hi.sum, ← total_eq_sum hi.wfb hL (fun a ha => by rw [← e, hc a ha]; rfl)]
  congr 1
  apply List.map_congr_left
  intro a _; rw [e]

/-- **C33.** At every height the total power is the sum of the powers of all addresses. -/
theorem C33_total_at_height {w : World} {b : Block} {log : List (Ev World Block Call Out)}
    (h : sys.Reach w b log) (x : Nat) {L : List Addr} (hL : L.Nodup)
    (hc : ∀ a, a ∉ L → powerAt w.c a x = 0) :
    totalPowerAt w.c x = (L.map (fun a => powerAt w.c a x)).sum := by
  obtain ⟨w1, b1, l1, l2, rfl, h1, hr, hx, hb⟩ := h.split x
  rcases hb with hb | ⟨rfl, hi⟩
  · have e := C30_nft_history h1 hr hb hx
    have hi := inv_reach h1
    rw [(e 0).2, hi.sum, ← total_eq_sum hi.wfb hL (fun a ha => by rw [← balanceOf_cur, ← (e a).1]; exact hc a ha)]
    congr 1
    apply List.map_congr_left
    intro a _; rw [(e a).1]; rfl
  · have e := fun a => C30_nft_stable h1 hr hx a
    obtain ⟨h3, h4, h5, _⟩ := init_shape hi
    have z : ∀ a, powerAt w1.c a x = 0 := by intro a; unfold powerAt; rw [h4]; rfl
    rw [(e 0).2]
    have z' : totalPowerAt w1.c x = 0 := by
      unfold totalPowerAt; rw [h5]
      by_cases hle : x ≤ b1.height
      · rw [Snap.atHeight_save (Snap.upTo_empty _) hle]; rfl
      · rw [Snap.atHeight_future (Snap.upTo_save (Snap.upTo_empty b1.height) (Nat.le_refl _)) (by omega)]
        exact total_save _ _ _
    rw [z']
    symm
    apply List.sum_eq_zero
    intro n hn
    obtain ⟨a, _, rfl⟩ := List.mem_map.1 hn
    rw [(e a).1, z]

/-- **C33.** No NFT is counted twice: a token staked by `a` or waited for by `a` is neither staked nor
waited for by anybody else; no token is staked and waited for; none is waited for twice; and the contract
owns it. -/
theorem C33_once {w : World} {b : Block} {log : List (Ev World Block Call Out)} (h : sys.Reach w b log)
    (a : Addr) (t : Tok) :
    (waiting w a).Nodup ∧ ¬ (t ∈ w.c.stakedNfts a ∧ t ∈ waiting w a) ∧
    ((t ∈ w.c.stakedNfts a ∨ t ∈ waiting w a) → owner w t = some w.self ∧
      ∀ a', (t ∈ w.c.stakedNfts a' ∨ t ∈ waiting w a') → a' = a) := by
  have hi := inv_reach h
  simp only [mem_stakedNfts]
  refine ⟨hi.nodup a, fun hh => hi.disj a t hh.1 hh.2, fun hh => ⟨hi.own a t hh, fun a' hh' => ?_⟩⟩
  exact hi.uniq _ _ _ hh' hh

theorem staker_skip {e : Ev World Block Call Out} {log : List (Ev World Block Call Out)} {t : Tok}
    (hc : ∀ a t', e.call ≠ .send a t')
    (h : owner e.pre t = some e.pre.self → owner e.post t = some e.post.self) :
    staker t (e :: log) = staker t log := by
  conv_lhs => unfold staker
  split
  · rename_i a t' he; exact absurd he (hc a t')
  · rw [if_neg (fun hh => hh.2 (h hh.1))]

theorem staker_left {e : Ev World Block Call Out} {log : List (Ev World Block Call Out)} {t : Tok}
    (hc : ∀ a t', e.call ≠ .send a t')
    (h : owner e.pre t = some e.pre.self) (h' : owner e.post t ≠ some e.post.self) :
    staker t (e :: log) = none := by
  conv_lhs => unfold staker
  split
  · rename_i a t' he; exact absurd he (hc a t')
  · rw [if_pos ⟨h, h'⟩]

/-- **C33.** The contract's records are right: `t` is staked by `a` or waited for by `a` exactly when `a`
sent it to the contract and the contract has not given it away since. -/
theorem C33_custody {w : World} {b : Block} {log : List (Ev World Block Call Out)} (h : sys.Reach w b log)
    (a : Addr) (t : Tok) :
    staker t log = some a ↔ t ∈ w.c.stakedNfts a ∨ t ∈ waiting w a := by
  rw [mem_stakedNfts]
  show _ ↔ Holds w.c a t
  refine Sys.Reach.induct (P := fun w _ log => staker t log = some a ↔ Holds w.c a t) ?_ ?_ h
  · intro b s hi
    obtain ⟨h1, _, _, h4, _⟩ := init_shape hi
    unfold Holds queued
    rw [h1, h4]
    simp [staker, AMap.get, NftClaims.of]
  · intro s b l env call out s' hreach ih hb hs
    have hi := inv_reach hreach
    cases step_effect hs with
    | stake x y o ho hos hx =>
      rw [holds_stake]
      simp only [staker]
      by_cases hy : y = t
      · subst hy
        have hfree : ∀ q, ¬ Holds s.c q y := by
          intro q hq
          have := hi.own q y hq
          rw [ho] at this; exact hos (Option.some.inj this)
        simp only [if_true, hfree, false_or, Option.some.injEq, and_true]
        exact ⟨fun h => h.symm, fun h => h.symm⟩
      · rw [if_neg hy, ih]; simp [Ne.symm hy]
    | payout x ts m o _ hx hts hm hd ht hba ho hh hsend =>
      have hr := removeAll_inv hi.wf hm
      obtain ⟨g1, g2, g3, g4⟩ := giveBack_inv hx ho
      rw [holds_unstake hr (fun t => hi.disj x t)]
      by_cases ht : t ∈ ts
      · rw [staker_left (e := ⟨s, env, _, _, _⟩) (by intro a t' h; cases h) (g1 t ht)
          (by simp only [owner, g2, ht, if_true]; intro h; exact hx (Option.some.inj h))]
        constructor
        · intro h; cases h
        · rintro ⟨h1, h2⟩; exact absurd ⟨hi.uniq _ _ _ h1 (Or.inl (hr.had t ht)), ht⟩ h2
      · rw [staker_skip (e := ⟨s, env, _, _, _⟩) (by intro a t' h; cases h) (by simp only [owner, g2, ht, if_false]; exact id), ih]
        simp [ht]
    | unbond x ts m d _ hx hts hm hd hlen ht hba hh hsend =>
      rw [holds_unbond (removeAll_inv hi.wf hm), staker_skip (e := ⟨s, env, _, _, _⟩) (by intro a t' h; cases h) (by exact id), ih]
    | claim x o hx hm ho =>
      obtain ⟨g1, g2, g3, g4⟩ := giveBack_inv hx ho
      rw [holds_claim hi]
      by_cases ht : t ∈ matured s.c env x
      · rw [staker_left (e := ⟨s, env, _, _, _⟩) (by intro a t' h; cases h) (g1 t ht)
          (by simp only [owner, g2, ht, if_true]; intro h; exact hx (Option.some.inj h))]
        constructor
        · intro h; cases h
        · rintro ⟨h1, h2⟩
          exact absurd ⟨hi.uniq _ _ _ h1 (Or.inr ((queued_split s.c env x t).2 (Or.inl ht))), ht⟩ h2
      · rw [staker_skip (e := ⟨s, env, _, _, _⟩) (by intro a t' h; cases h) (by simp only [owner, g2, ht, if_false]; exact id), ih]
        simp [ht]
    | admin m c hsm hm =>
      rw [holds_admin hsm, staker_skip (e := ⟨s, env, _, _, _⟩) (by intro a t' h; cases h) (by exact id), ih]
    | transfer x d y o ho hos =>
      rw [staker_skip (e := ⟨s, env, _, _, _⟩) (by intro a t' h; cases h), ih]
      simp only [owner, AMap.get_set]
      intro h1
      rw [if_neg]
      · exact h1
      · rintro rfl; rw [ho] at h1; exact hos (Option.some.inj h1)
    | mint d y ho hl =>
      rw [staker_skip (e := ⟨s, env, _, _, _⟩) (by intro a t' h; cases h), ih]
      simp only [owner, AMap.get_set]
      intro h1
      rw [if_neg]
      · exact h1
      · rintro rfl; rw [ho] at h1; cases h1
    | burn x y o ho hos =>
      rw [staker_skip (e := ⟨s, env, _, _, _⟩) (by intro a t' h; cases h), ih]
      simp only [owner, AMap.get_erase]
      intro h1
      rw [if_neg]
      · exact h1
      · rintro rfl; rw [ho] at h1; exact hos (Option.some.inj h1)

/-- **C33.** An NFT leaves the contract only to the one who staked it, in a call of their own: an unstake
naming it when there is no waiting time, or a claim. -/
theorem C33_returned {w w' : World} {b b' : Block} {log : List (Ev World Block Call Out)} {call : Call}
    {out : Out} (h : sys.Reach w b log) (hs : sys.step w b' call = .ok (w', out)) {t : Tok}
    (h1 : owner w t = some w.self) (h2 : owner w' t ≠ some w'.self) :
    ∃ a, staker t log = some a ∧ owner w' t = some a ∧
      ((call = .exec a .claimNfts ∧ t ∈ waiting w a) ∨
        ∃ ts, call = .exec a (.unstake ts) ∧ t ∈ ts ∧ t ∈ w.c.stakedNfts a ∧ w.c.unstakingDuration = none) := by
  have hi := inv_reach h
  unfold owner at h1 h2 ⊢
  cases step_effect hs with
  | stake x y o ho hos hx =>
    exfalso; apply h2
    simp only [AMap.get_set]; split
    · rfl
    · exact h1
  | payout x ts m o _ hx hts hm hd ht hba ho hh hsend =>
    obtain ⟨g1, g2, g3, g4⟩ := giveBack_inv hx ho
    have hr := removeAll_inv hi.wf hm
    by_cases ht : t ∈ ts
    · have hst := mem_stakedNfts.2 (hr.had t ht)
      refine ⟨x, (C33_custody h x t).2 (Or.inl hst), by simp only [g2, ht, if_true], Or.inr
        ⟨ts, rfl, ht, hst, hd⟩⟩
    · exfalso; apply h2; simp only [g2, ht, if_false]; exact h1
  | unbond => exact absurd h1 h2
  | claim x o hx hm ho =>
    obtain ⟨g1, g2, g3, g4⟩ := giveBack_inv hx ho
    by_cases ht : t ∈ matured w.c b' x
    · have hst : t ∈ waiting w x := (queued_split w.c b' x t).2 (Or.inl ht)
      exact ⟨x, (C33_custody h x t).2 (Or.inr hst), by simp only [g2, ht, if_true], Or.inl ⟨rfl, hst⟩⟩
    · exfalso; apply h2; simp only [g2, ht, if_false]; exact h1
  | admin => exact absurd h1 h2
  | transfer x d y o ho hos =>
    exfalso; apply h2
    simp only [AMap.get_set]; split
    · rename_i hy; subst hy; rw [ho] at h1; exact absurd (Option.some.inj h1) hos
    · exact h1
  | mint d y ho hl =>
    exfalso; apply h2
    simp only [AMap.get_set]; split
    · rename_i hy; subst hy; rw [ho] at h1; cases h1
    · exact h1
  | burn x y o ho hos =>
    exfalso; apply h2
    simp only [AMap.get_erase]; split
    · rename_i hy; subst hy; rw [ho] at h1; exact absurd (Option.some.inj h1) hos
    · exact h1

/-- No more NFTs are staked than there are. -/
theorem total_le_owners {w : World} (hi : Inv w) : w.c.total ≤ w.owners.length := by
  rw [hi.len]
  have hnd : (w.c.staked.map (fun e => e.1.2)).Nodup := by
    have hw := hi.wf
    unfold AMap.WF at hw
    rw [List.nodup_map_iff_inj_on (List.Nodup.of_map _ hw)]
    rintro ⟨⟨x, t⟩, u⟩ hx ⟨⟨y, t'⟩, u'⟩ hy hxy
    simp only at hxy
    subst hxy
    have e1 := AMap.get_of_mem hi.wf hx
    have e2 := AMap.get_of_mem hi.wf hy
    have := hi.uniq x y t (Or.inl e1) (Or.inl e2)
    subst this
    rfl
  have hsub : (w.c.staked.map (fun e => e.1.2)) ⊆ w.owners.map Prod.fst := by
    intro t ht
    obtain ⟨⟨⟨x, t'⟩, u⟩, he, rfl⟩ := List.mem_map.1 ht
    rw [AMap.mem_keys_iff, hi.own x t' (Or.inl (AMap.get_of_mem hi.wf he))]; rfl
  have := (List.Nodup.subperm hnd hsub).length_le
  simpa using this

/-- The numbers of NFTs fit. -/
theorem total_lt {w : World} (hi : Inv w) : w.c.total < U64 :=
  Nat.lt_of_le_of_lt (total_le_owners hi) hi.small

/-- **C33.** The total power is at most the number of NFTs of the collection. -/
theorem C33_bounded {w : World} {b : Block} {log : List (Ev World Block Call Out)} (h : sys.Reach w b log) :
    w.c.total ≤ w.owners.length := total_le_owners (inv_reach h)

theorem U64_lt_U128 : U64 < U128 := by decide +kernel

/-- **C33.** Staking always succeeds: whoever sends a token that the contract does not own is recorded as
its staker. -/
theorem C33_stakeable {w : World} {b b' : Block} {log : List (Ev World Block Call Out)}
    (h : sys.Reach w b log) {a o : Addr} {t : Tok} (ho : owner w t = some o) (hos : o ≠ w.self)
    (ha : a ≠ w.self) :
    ∃ w' out, sys.step w b' (.send a t) = .ok (w', out) ∧ owner w' t = some w.self ∧
      t ∈ w'.c.stakedNfts a ∧ w'.c.balanceOf a = w.c.balanceOf a + 1 ∧ w'.c.total = w.c.total + 1 := by
  have hi := inv_reach h
  have hlt := total_lt hi
  have hU := U64_lt_U128
  have hble : w.c.balanceOf a ≤ w.c.total := by
    rw [hi.sum, balanceOf_cur]; exact getD0_le_total _ _
  have e1 : add128 (w.c.balanceOf a) 1 = .ok (w.c.balanceOf a + 1) := by
    rw [add128_ok]; exact ⟨by omega, rfl⟩
  have e2 : add128 w.c.total 1 = .ok (w.c.total + 1) := by
    rw [add128_ok]; exact ⟨by omega, rfl⟩
  have ht : canTouch w a t = true := canTouch_iff.2 ⟨o, ho, hos, ha⟩
  refine ⟨{ w with c := afterStake w.c b' a t, owners := w.owners.set t w.self },
    { hooks := hookMsgs w.c.hooks true a [t] }, ?_, ?_, ?_, ?_, total_save _ _ _⟩
  · simp only [sys, step, ht, require, if_true, ok_bind, exec, execStake, registerStaked,
      decide_true, e1, e2]
    rfl
  · simp [owner]
  · rw [mem_stakedNfts]; simp [afterStake]
  · refine (bal_save w.c a a _ _).trans ?_
    simp

/-- **C33.** Unstaking: the sender names different tokens they staked. Their power and the total drop by
their number; the tokens are returned at once, or they wait for the period. -/
theorem C33_unstake {w w' : World} {b b' : Block} {log : List (Ev World Block Call Out)} {a : Addr}
    {ts : List Tok} {out : Out} (h : sys.Reach w b log)
    (hs : sys.step w b' (.exec a (.unstake ts)) = .ok (w', out)) :
    ts ≠ [] ∧ ts.Nodup ∧ (∀ t ∈ ts, t ∈ w.c.stakedNfts a) ∧
    (∀ q t, t ∈ w'.c.stakedNfts q ↔ t ∈ w.c.stakedNfts q ∧ ¬ (q = a ∧ t ∈ ts)) ∧
    w'.c.balanceOf a + ts.length = w.c.balanceOf a ∧ w'.c.total + ts.length = w.c.total ∧
    (match w.c.unstakingDuration with
      | none => (∀ t ∈ ts, owner w' t = some a) ∧ w'.c.claims = w.c.claims
      | some d => w'.owners = w.owners ∧
          w'.c.claims.of a = w.c.claims.of a ++ ts.map (fun t => ⟨t, d.after b'⟩)) := by
  have hi := inv_reach h
  simp only [mem_stakedNfts]
  have hs' : step w b' (.exec a (.unstake ts)) = .ok (w', out) := hs
  cases step_effect hs' with
  | payout _ _ m o _ hx hts hm hd ht hba ho hh hsend =>
    have hr := removeAll_inv hi.wf hm
    obtain ⟨g1, g2, g3, g4⟩ := giveBack_inv hx ho
    have e1 : (afterUnstake w.c b' a ts.length m).balanceOf a = w.c.balanceOf a - ts.length :=
      (bal_save w.c a a _ _).trans (by simp)
    have e2 : (afterUnstake w.c b' a ts.length m).total = w.c.total - ts.length := total_save _ _ _
    refine ⟨hts, hr.nodup, hr.had, ?_, by rw [e1]; omega, by rw [e2]; omega, ?_⟩
    · intro q t
      show m.get (q, t) = some () ↔ _
      rw [hr.get]
      by_cases hq : q = a ∧ t ∈ ts <;> simp [hq]
    · rw [hd]
      refine ⟨?_, rfl⟩
      intro t ht
      simp only [owner, g2, ht, if_true]
  | unbond _ _ m d _ hx hts hm hd hlen ht hba hh hsend =>
    have hr := removeAll_inv hi.wf hm
    have e1 : State.balanceOf { afterUnstake w.c b' a ts.length m with
        claims := w.c.claims.create a ts (d.after b') } a = w.c.balanceOf a - ts.length :=
      (bal_save w.c a a _ _).trans (by simp)
    have e2 : State.total { afterUnstake w.c b' a ts.length m with
        claims := w.c.claims.create a ts (d.after b') } = w.c.total - ts.length := total_save _ _ _
    refine ⟨hts, hr.nodup, hr.had, ?_, by rw [e1]; omega, by rw [e2]; omega, ?_⟩
    · intro q t
      show m.get (q, t) = some () ↔ _
      rw [hr.get]
      by_cases hq : q = a ∧ t ∈ ts <;> simp [hq]
    · rw [hd]
      refine ⟨rfl, ?_⟩
      unfold NftClaims.create
      rw [NftClaims.of_set, if_pos rfl]
  | admin m c hsm hm => exact absurd rfl (hm.1 ts)

/-- Unstaking different staked tokens succeeds, and so do the transfers. -/
theorem unstake_exec {w : World} (hi : Inv w) (b' : Block) {a : Addr} {ts : List Tok} (hts : ts ≠ [])
    (hn : ts.Nodup) (hst : ∀ t ∈ ts, t ∈ w.c.stakedNfts a)
    (hlen : w.c.unstakingDuration = none ∨ (waiting w a).length + ts.length ≤ 70) :
    ∃ c out o, exec w.c b' w.owners.length a (.unstake ts) = .ok (c, out) ∧
      giveBack w.owners w.self out.send = .ok o := by
  simp only [mem_stakedNfts] at hst
  obtain ⟨m, hm⟩ := removeAll_ok hn hst
  have hr := removeAll_inv hi.wf hm
  obtain ⟨n, hn'⟩ : ∃ n, w.c.totalStaked.get () = some n := by
    cases hg : w.c.totalStaked.get () with
    | none => exact absurd hg hi.tot
    | some n => exact ⟨n, rfl⟩
  have htot : w.c.total = n := by unfold State.total; rw [hn']; rfl
  have hba : ts.length ≤ w.c.balanceOf a := by
    have := hr.count a; rw [if_pos rfl] at this; rw [hi.bal]; omega
  have hbt : w.c.balanceOf a ≤ w.c.total := by
    rw [hi.sum, balanceOf_cur]; exact getD0_le_total _ _
  have hpos : 0 < ts.length := List.length_pos_of_ne_nil hts
  obtain ⟨x, hx⟩ : ∃ x, w.c.balances.get a = some x := by
    cases hg : w.c.balances.get a with
    | none => exfalso; unfold State.balanceOf at hba; rw [hg] at hba; have : ts.length ≤ 0 := hba; omega
    | some x => exact ⟨x, rfl⟩
  have hbx : w.c.balanceOf a = x := by unfold State.balanceOf; rw [hx]; rfl
  have e1 : sub128 n ts.length = .ok (n - ts.length) := by rw [sub128_ok]; exact ⟨by omega, rfl⟩
  have e2 : sub128 x ts.length = .ok (x - ts.length) := by rw [sub128_ok]; exact ⟨by omega, rfl⟩
  have hne : decide (ts ≠ []) = true := decide_eq_true hts
  cases hd : w.c.unstakingDuration with
  | none =>
    obtain ⟨o, ho⟩ := giveBack_ok (a := a) hn (fun t ht => hi.own a t (Or.inl (hst t ht)))
    refine ⟨{ w.c with
        staked := m
        balances := w.c.balances.save a (x - ts.length) b'.height
        totalStaked := w.c.totalStaked.save () (n - ts.length) b'.height },
      { send := ts.map (fun t => (a, t)), hooks := hookMsgs w.c.hooks false a ts }, o, ?_, ho⟩
    simp only [hne, require, if_true, ok_bind, exec, execUnstake, registerUnstaked, hm, hn', hx,
      orErr, e1, e2, release, hd]
  | some d =>
    have hl : ¬ ((w.c.claims.of a).length + ts.length > MAX_CLAIMS) := by
      rcases hlen with hl | hl
      · rw [hd] at hl; cases hl
      · unfold waiting at hl; rw [List.length_map] at hl; unfold MAX_CLAIMS; omega
    refine ⟨{ w.c with
        staked := m
        balances := w.c.balances.save a (x - ts.length) b'.height
        totalStaked := w.c.totalStaked.save () (n - ts.length) b'.height
        claims := w.c.claims.create a ts (d.after b') },
      { hooks := hookMsgs w.c.hooks false a ts }, w.owners, ?_, rfl⟩
    simp only [hne, require, if_true, ok_bind, exec, execUnstake, registerUnstaked, hm, hn', hx,
      orErr, e1, e2, release, hd, hl, if_false]

/-- **C33.** A staker can always unstake: any non-empty list of different tokens they staked, as long as at
most 70 of their tokens wait. -/
theorem C33_unstakeable {w : World} {b b' : Block} {log : List (Ev World Block Call Out)}
    (h : sys.Reach w b log) {a : Addr} (ha : a ≠ w.self) (hnft : a ≠ w.c.nft) {ts : List Tok} (hts : ts ≠ [])
    (hn : ts.Nodup) (hst : ∀ t ∈ ts, t ∈ w.c.stakedNfts a)
    (hlen : w.c.unstakingDuration = none ∨ (waiting w a).length + ts.length ≤ 70) :
    ∃ w' out, sys.step w b' (.exec a (.unstake ts)) = .ok (w', out) := by
  obtain ⟨c, out, o, hx, ho⟩ := unstake_exec (inv_reach h) b' hts hn hst hlen
  have hsnd : decide (a ≠ w.self ∧ a ≠ w.c.nft) = true := decide_eq_true ⟨ha, hnft⟩
  refine ⟨{ w with c := c, owners := o }, out, ?_⟩
  simp only [sys, step, hsnd, require, if_true, ok_bind, hx, ho]

/-- Claiming when a claim is mature succeeds, and so do the transfers. -/
theorem claim_exec {w : World} (hi : Inv w) {b' : Block} {a : Addr} {cl : NftClaim}
    (hcl : cl ∈ w.c.claims.of a) (hm : cl.releaseAt.isExpired b' = true) :
    ∃ o, exec w.c b' w.owners.length a .claimNfts =
        .ok ({ w.c with claims := AMap.set w.c.claims a (remaining w.c b' a) },
          { send := (matured w.c b' a).map (fun t => (a, t)) }) ∧
      giveBack w.owners w.self ((matured w.c b' a).map (fun t => (a, t))) = .ok o := by
  have hne : matured w.c b' a ≠ [] := by
    intro he
    have : cl.token ∈ matured w.c b' a := List.mem_map.2 ⟨cl, List.mem_filter.2 ⟨hcl, hm⟩, rfl⟩
    rw [he] at this; cases this
  obtain ⟨o, ho⟩ := giveBack_ok (a := a) (matured_nodup b' (hi.nodup a)) (fun t ht =>
    hi.own a t (Or.inr ((queued_split w.c b' a t).2 (Or.inl ht))))
  have hd : decide ((w.c.claims.claim a b').2 ≠ []) = true := decide_eq_true hne
  refine ⟨o, ?_, ho⟩
  simp only [require, if_true, ok_bind, exec, execClaim, hd]
  rfl

/-- **C33.** Once a claim is mature its owner can take it, with all other mature ones; those not yet mature
stay. -/
theorem C33_claimable {w : World} {b b' : Block} {log : List (Ev World Block Call Out)}
    (h : sys.Reach w b log) {a : Addr} (ha : a ≠ w.self) (hnft : a ≠ w.c.nft) {cl : NftClaim}
    (hcl : cl ∈ w.c.claims.of a) (hm : cl.releaseAt.isExpired b' = true) :
    ∃ w' out, sys.step w b' (.exec a .claimNfts) = .ok (w', out) ∧
      (∀ x ∈ w.c.claims.of a, x.releaseAt.isExpired b' = true → owner w' x.token = some a) ∧
      w'.c.claims.of a = (w.c.claims.of a).filter (fun x => !x.releaseAt.isExpired b') := by
  have hi := inv_reach h
  have hne : matured w.c b' a ≠ [] := by
    intro he
    have : cl.token ∈ matured w.c b' a := List.mem_map.2 ⟨cl, List.mem_filter.2 ⟨hcl, hm⟩, rfl⟩
    rw [he] at this; cases this
  obtain ⟨o, ho⟩ := giveBack_ok (a := a) (matured_nodup b' (hi.nodup a)) (fun t ht =>
    hi.own a t (Or.inr ((queued_split w.c b' a t).2 (Or.inl ht))))
  obtain ⟨g1, g2, g3, g4⟩ := giveBack_inv ha ho
  refine ⟨{ w with c := { w.c with claims := AMap.set w.c.claims a (remaining w.c b' a) }, owners := o },
    { send := (matured w.c b' a).map (fun t => (a, t)) }, ?_, ?_, ?_⟩
  · have hsnd : decide (a ≠ w.self ∧ a ≠ w.c.nft) = true := decide_eq_true ⟨ha, hnft⟩
    have hd : decide ((w.c.claims.claim a b').2 ≠ []) = true := decide_eq_true hne
    simp only [sys, step, hsnd, require, if_true, ok_bind, exec, execClaim, hd]
    have ho' : giveBack w.owners w.self (List.map (fun t => (a, t)) (w.c.claims.claim a b').2) = .ok o := ho
    rw [ho', ok_bind]; rfl
  · intro x hx he
    have : x.token ∈ matured w.c b' a := List.mem_map.2 ⟨x, List.mem_filter.2 ⟨hx, he⟩, rfl⟩
    simp only [owner, g2, this, if_true]
  · simp only [NftClaims.of_set, if_true]; rfl

/-- **C33.** A claim takes exactly the mature tokens of the sender and nothing before its time. -/
theorem C33_claim {w w' : World} {b' : Block} {a : Addr} {out : Out}
    (hs : sys.step w b' (.exec a .claimNfts) = .ok (w', out)) :
    (∀ t, owner w' t = if ∃ x ∈ w.c.claims.of a, x.token = t ∧ x.releaseAt.isExpired b' = true then some a
      else owner w t) ∧
    (∃ x ∈ w.c.claims.of a, x.releaseAt.isExpired b' = true) ∧
    w'.c.claims.of a = (w.c.claims.of a).filter (fun x => !x.releaseAt.isExpired b') := by
  have hs' : step w b' (.exec a .claimNfts) = .ok (w', out) := hs
  cases step_effect hs' with
  | claim _ o hx hm ho =>
    obtain ⟨g1, g2, g3, g4⟩ := giveBack_inv hx ho
    refine ⟨?_, ?_, ?_⟩
    · intro t
      simp only [owner, g2]
      have e : t ∈ matured w.c b' a ↔
          ∃ x ∈ w.c.claims.of a, x.token = t ∧ x.releaseAt.isExpired b' = true := by
        unfold matured
        simp only [List.mem_map, List.mem_filter]
        constructor
        · rintro ⟨x, ⟨h1, h2⟩, h3⟩; exact ⟨x, h1, h3, h2⟩
        · rintro ⟨x, h1, h3, h2⟩; exact ⟨x, ⟨h1, h2⟩, h3⟩
      simp only [e]
    · obtain ⟨t, ht⟩ := List.exists_mem_of_ne_nil _ hm
      unfold matured at ht
      simp only [List.mem_map, List.mem_filter] at ht
      obtain ⟨x, ⟨h1, h2⟩, _⟩ := ht
      exact ⟨x, h1, h2⟩
    · simp only [NftClaims.of_set, if_true]; rfl
  | admin m c hsm hm => exact absurd rfl hm.2.1

/-- **C33.** Nobody else touches what an address has staked or waits for: that changes only in its own
calls and in its own sends. -/
theorem C33_others {w w' : World} {b b' : Block} {log : List (Ev World Block Call Out)} {call : Call}
    {out : Out} (h : sys.Reach w b log) (hs : sys.step w b' call = .ok (w', out)) {a : Addr}
    (h1 : ∀ ts, call ≠ .exec a (.unstake ts)) (h2 : call ≠ .exec a .claimNfts) (h3 : ∀ t, call ≠ .send a t) :
    w'.c.claims.of a = w.c.claims.of a ∧ (∀ t, t ∈ w'.c.stakedNfts a ↔ t ∈ w.c.stakedNfts a) ∧
      w'.c.balanceOf a = w.c.balanceOf a := by
  have hi := inv_reach h
  simp only [mem_stakedNfts]
  cases step_effect hs with
  | stake x y o ho hos hx =>
    have hne : x ≠ a := by rintro rfl; exact h3 y rfl
    refine ⟨rfl, fun t => ?_, (bal_save w.c x a _ _).trans (if_neg hne)⟩
    simp [afterStake, AMap.get_set, hne]
  | payout x ts m o _ hx hts hm hd ht hba ho hh hsend =>
    have hne : x ≠ a := by rintro rfl; exact h1 ts rfl
    refine ⟨rfl, fun t => ?_, (bal_save w.c x a _ _).trans (if_neg hne)⟩
    show m.get (a, t) = some () ↔ _
    rw [(removeAll_inv hi.wf hm).get]; simp [Ne.symm hne]
  | unbond x ts m d _ hx hts hm hd hlen ht hba hh hsend =>
    have hne : x ≠ a := by rintro rfl; exact h1 ts rfl
    refine ⟨?_, fun t => ?_, (bal_save w.c x a _ _).trans (if_neg hne)⟩
    · show NftClaims.of (NftClaims.create _ _ _ _) a = _
      unfold NftClaims.create; rw [NftClaims.of_set, if_neg hne]
    · show m.get (a, t) = some () ↔ _
      rw [(removeAll_inv hi.wf hm).get]; simp [Ne.symm hne]
  | claim x o hx hm ho =>
    have hne : x ≠ a := by rintro rfl; exact h2 rfl
    exact ⟨by simp only [NftClaims.of_set, hne, if_false], fun t => Iff.rfl, rfl⟩
  | admin m c hsm hm =>
    exact ⟨by simp only [hsm.claims], fun t => by simp only [hsm.staked],
      by simp only [State.balanceOf, hsm.balances]⟩
  | transfer => exact ⟨rfl, fun _ => Iff.rfl, rfl⟩
  | mint => exact ⟨rfl, fun _ => Iff.rfl, rfl⟩
  | burn => exact ⟨rfl, fun _ => Iff.rfl, rfl⟩

/-- **C33.** The DAO, the waiting time, the threshold and the hooks change only by the DAO's own calls;
the NFT contract never changes. -/
theorem C33_admin {w w' : World} {b : Block} {call : Call} {out : Out}
    (hs : sys.step w b call = .ok (w', out)) :
    w'.c.nft = w.c.nft ∧ w'.c.dao = w.c.dao ∧
    ((∃ m, call = .exec w.c.dao m) ∨ (w'.c.unstakingDuration = w.c.unstakingDuration ∧
      w'.c.threshold = w.c.threshold ∧ w'.c.hooks = w.c.hooks)) := by
  cases step_effect hs with
  | admin m c hsm hm => exact ⟨hsm.nft, hsm.dao, Or.inl ⟨m, rfl⟩⟩
  | _ => exact ⟨rfl, rfl, Or.inr ⟨rfl, rfl, rfl⟩⟩

/-- **C33.** Every hook is told of every stake and unstake: by whom, and which tokens. -/
theorem C33_hooks {w w' : World} {b : Block} {call : Call} {out : Out}
    (hs : sys.step w b call = .ok (w', out)) :
    (∀ a t, call = .send a t → out.hooks = (w.c.hooks.getD []).map (fun k => ⟨k, true, a, [t]⟩)) ∧
    (∀ a ts, call = .exec a (.unstake ts) →
      out.hooks = (w.c.hooks.getD []).map (fun k => ⟨k, false, a, ts⟩)) := by
  have e : ∀ i a ts, hookMsgs w.c.hooks i a ts = (w.c.hooks.getD []).map (fun k => ⟨k, i, a, ts⟩) := by
    intro i a ts
    unfold hookMsgs Hooks.prepareHooks
    rw [show (fun p : Addr × Nat => (⟨p.1, i, a, ts⟩ : HookMsg)) = (fun k => ⟨k, i, a, ts⟩) ∘ Prod.fst from rfl,
      ← List.map_map, List.zipIdx_map_fst]
    rfl
  cases step_effect hs with
  | stake x y o ho hos hx =>
    refine ⟨?_, ?_⟩
    · intro a t h; cases h; exact e _ _ _
    · intro a ts h; cases h
  | payout x ts m o _ hx hts hm hd ht hba ho hh hsend =>
    refine ⟨?_, ?_⟩
    · intro a t h; cases h
    · intro a ts h; cases h; rw [hh]; exact e _ _ _
  | unbond x ts m d _ hx hts hm hd hlen ht hba hh hsend =>
    refine ⟨?_, ?_⟩
    · intro a t h; cases h
    · intro a ts h; cases h; rw [hh]; exact e _ _ _
  | claim => exact ⟨fun _ _ h => (by cases h), fun _ _ h => (by cases h)⟩
  | admin m c hsm hm =>
    refine ⟨fun _ _ h => (by cases h), fun a ts h => ?_⟩
    cases h; exact absurd rfl (hm.1 ts)
  | transfer => exact ⟨fun _ _ h => (by cases h), fun _ _ h => (by cases h)⟩
  | mint => exact ⟨fun _ _ h => (by cases h), fun _ _ h => (by cases h)⟩
  | burn => exact ⟨fun _ _ h => (by cases h), fun _ _ h => (by cases h)⟩

/-! ## C32 -/

/-- A stored percentage is valid. -/
theorem threshold_valid {w : World} {b : Block} {log : List (Ev World Block Call Out)}
    (h : sys.Reach w b log) {p : Nat} (hp : w.c.threshold = some (.percentage p)) :
    assertValidPercentage p = .ok () := by
  refine Sys.Reach.induct (P := fun w _ _ => ∀ p, w.c.threshold = some (.percentage p) →
    assertValidPercentage p = .ok ()) ?_ ?_ h p hp
  · intro b w hi p hp
    obtain ⟨dao, nft, sup, d, t, hi, _, _, _⟩ := hi
    simp only [instantiate, bind_ok, Except.ok.injEq] at hi
    obtain ⟨_, _, _, hc, hi⟩ := hi
    rw [← hi] at hp
    simp only at hp
    subst hp
    exact hc
  · intro w b l env call out w' _ ih hb hs p hp
    have hs0 : step w env call = .ok (w', out) := hs
    cases step_effect hs with
    | admin m c hsm hm =>
      simp only [step, bind_ok] at hs0
      obtain ⟨_, _, ⟨c1, o1⟩, hx, hs0⟩ := hs0
      simp only [bind_ok, Except.ok.injEq, Prod.mk.injEq, World.mk.injEq] at hs0
      obtain ⟨_, _, ⟨rfl, _, _⟩, _⟩ := hs0
      cases m with
      | receiveNft x t => exact absurd rfl (hm.2.2 x t)
      | unstake ts => exact absurd rfl (hm.1 ts)
      | claimNfts => exact absurd rfl hm.2.1
      | updateConfig d =>
        simp only [exec, bind_ok, Except.ok.injEq, Prod.mk.injEq] at hx
        obtain ⟨_, _, _, _, rfl, _⟩ := hx
        exact ih p hp
      | addHook d =>
        simp only [exec, bind_ok, Except.ok.injEq, Prod.mk.injEq] at hx
        obtain ⟨_, _, _, _, rfl, _⟩ := hx
        exact ih p hp
      | removeHook d =>
        simp only [exec, bind_ok, Except.ok.injEq, Prod.mk.injEq] at hx
        obtain ⟨_, _, _, _, rfl, _⟩ := hx
        exact ih p hp
      | updateActiveThreshold t =>
        simp only [exec, bind_ok, Except.ok.injEq, Prod.mk.injEq] at hx
        obtain ⟨_, _, _, hc, rfl, _⟩ := hx
        simp only at hp
        subst hp
        exact hc
    | _ => exact ih p hp

/-- **C32.** In every reachable state the query answers, and answers as documented: true without a
threshold, that the count is staked, or that something and the fraction of the supply is staked. What is
staked is what was staked when the block began. -/
theorem C32_nft_active {w : World} {b b' : Block} {log : List (Ev World Block Call Out)}
    (h : sys.Reach w b log) :
    ∃ r, active w.c b' w.owners.length = .ok r ∧
      (r = true ↔ match w.c.threshold with
        | none => True
        | some (.absolute n) => n ≤ totalPowerAt w.c b'.height
        | some (.percentage p) => 0 < totalPowerAt w.c b'.height ∧
          fraction p * (w.owners.length : ℚ) < (totalPowerAt w.c b'.height : ℚ) + 1 / 10 ^ 9) := by
  have hsup : w.owners.length < U128 := Nat.lt_trans (inv_reach h).small U64_lt_U128
  unfold active
  cases ht : w.c.threshold with
  | none => exact ⟨true, rfl, by simp⟩
  | some t =>
    cases t with
    | absolute n => exact ⟨decide (n ≤ totalPowerAt w.c b'.height), rfl, by simp⟩
    | percentage p => exact C32_nft hsup (threshold_valid h ht)

/-! ## A concrete history

Contract 9 of DAO 1 and NFT contract 8, unstaking after 10 blocks, active at 40 percent. Addresses 2 and 3
stake; address 2 unstakes and claims. Token 7 is sent by address 5 on behalf of its owner 3 and counts for
address 5. -/

def exW : World :=
  ⟨match instantiate ⟨1, 1⟩ 1 8 (some 4) (some (.height 10)) (some (.percentage 400000000000000000)) with
    | .ok c => c
    | .error _ => ⟨0, 0, none, [], Snap.empty, Snap.empty, [], none, none⟩, 9,
   [(4, 2), (5, 2), (6, 3), (7, 3)]⟩

def exCalls : List (Block × Call) :=
  [(⟨2, 2⟩, .send 2 4), (⟨2, 2⟩, .send 2 5), (⟨3, 3⟩, .send 3 6), (⟨4, 4⟩, .send 5 7),
   (⟨9, 9⟩, .exec 2 (.unstake [4])), (⟨12, 12⟩, .exec 2 (.unstake [5])), (⟨19, 19⟩, .exec 2 .claimNfts)]

example : sys.init ⟨1, 1⟩ exW :=
  ⟨1, 8, some 4, some (.height 10), some (.percentage 400000000000000000), by decide +kernel, Or.inl rfl,
    by unfold AMap.WF; decide +kernel, by decide +kernel⟩

example : (match sys.play exW ⟨1, 1⟩ exCalls with
    | some (w, _, log) => decide (owner w 4 = some 2 ∧ owner w 5 = some 9 ∧ w.c.stakedNfts 2 = [] ∧
        w.c.stakedNfts 5 = [7] ∧ waiting w 2 = [5] ∧ staker 4 log = none ∧ staker 5 log = some 2 ∧
        staker 7 log = some 5 ∧ powerAt w.c 2 9 = 2 ∧ powerAt w.c 2 10 = 1 ∧ totalPowerAt w.c 9 = 4 ∧
        w.c.total = 2 ∧ active w.c ⟨19, 19⟩ 4 = .ok true ∧ active w.c ⟨2, 2⟩ 4 = .ok false)
    | none => false) = true := by decide +kernel

end Verif.NftStaked
