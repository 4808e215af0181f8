import Verif.Proofs.ExternalShare
/-!
# C34, C63: cw20-stake-external-rewards

`queryPending w.c b (w.view b) a` is the contract's answer in block `b` to the query for the rewards `a`
can claim.
-/

namespace Verif.ExternalRewards
open Verif.Spec.ExternalRewards

variable {w w' : World} {b b' : Block} {log : List (Ev World Block Call Pay)}

/-- The rewards of different addresses, as the query reports them, scaled. -/
theorem pending_sum {F P : Nat} (h : Inv w b F P) (l : List (Addr × Nat)) (hn : (l.map Prod.fst).Nodup)
    (hq : ∀ p ∈ l, queryPending w.c b (w.view b) p.1 = .ok p.2) : P + (l.map Prod.snd).sum ≤ F := by
  have hval : ∀ p ∈ l, SCALE * p.2 ≤ SCALE * getD0 w.c.pending p.1 + getD0 w.stakes.cur p.1 *
      (w.c.perToken + accrued w.c b (w.totalAt b.height) - getD0 w.c.userPerToken p.1) := by
    intro p hp
    have e := queryPending_inv (hq p hp)
    rw [e, Nat.mul_add]
    refine Nat.add_le_add_left ?_ _
    have := h.weight p.1
    have e2 : w.stake p.1 = getD0 w.stakes.cur p.1 := rfl
    rw [← e2, ← this]
    exact Nat.mul_div_le _ _
  have key : ∀ l : List (Addr × Nat), (∀ p ∈ l, SCALE * p.2 ≤ SCALE * getD0 w.c.pending p.1 +
      getD0 w.stakes.cur p.1 *
      (w.c.perToken + accrued w.c b (w.totalAt b.height) - getD0 w.c.userPerToken p.1)) →
      SCALE * (l.map Prod.snd).sum ≤ SCALE * ((l.map Prod.fst).map (fun a => getD0 w.c.pending a)).sum +
      ((l.map Prod.fst).map (fun a => getD0 w.stakes.cur a *
        (w.c.perToken + accrued w.c b (w.totalAt b.height) - getD0 w.c.userPerToken a))).sum := by
    intro l
    induction l with
    | nil => simp
    | cons p l ih =>
      intro hl
      have h1 := hl p (by simp)
      have h2 := ih (fun q hq => hl q (by simp [hq]))
      simp only [List.map_cons, List.sum_cons, Nat.mul_add] at h2 ⊢
      omega
  have h1 := key l hval
  have h2 : ((l.map Prod.fst).map (fun a => getD0 w.c.pending a)).sum ≤ Verif.total w.c.pending := by
    rw [total_eq]
    exact AMap.sum_nodup h.pwf (fun _ n => n) (l.map Prod.fst) hn (by simp)
  have h3 := AMap.sum_nodup h.wf (fun a n => n *
        (w.c.perToken + accrued w.c b (w.totalAt b.height) - getD0 w.c.userPerToken a)) (l.map Prod.fst) hn
        (by simp)
  rw [h.sum_accrue] at h3
  have h4 := h.accrued_le.1
  have h5 := h.money
  have h6 := split_rate (lastUpdate_le h)
  have h7 := Nat.mul_le_mul_left SCALE h2
  have h8 : SCALE * (P + (l.map Prod.snd).sum) ≤ SCALE * F := by
    rw [Nat.mul_add] at h5 ⊢
    omega
  exact Nat.le_of_mul_le_mul_left h8 SCALE_pos

/-- C34. All rewards ever paid out, plus what any group of addresses can claim now or in a later block,
never exceed the amount funded. -/
theorem C34_bound (h : sys.Reach w b log) (hb : b.le b') (l : List (Addr × Nat))
    (hn : (l.map Prod.fst).Nodup)
    (hq : ∀ p ∈ l, queryPending w.c b' (w.view b') p.1 = .ok p.2) :
    paidOut log + (l.map Prod.snd).sum ≤ funded log :=
  pending_sum ((inv_reach h).later hb) l hn hq

/-- C34. The contract holds the tokens for everything claimable. -/
theorem C34_solvent (h : sys.Reach w b log) (hb : b.le b') (l : List (Addr × Nat))
    (hn : (l.map Prod.fst).Nodup)
    (hq : ∀ p ∈ l, queryPending w.c b' (w.view b') p.1 = .ok p.2) :
    (l.map Prod.snd).sum ≤ coins w w.self := by
  have h1 := C34_bound h hb l hn hq
  have h2 := (inv_reach h).held
  unfold coins
  omega

/-! ## Nothing blocks a claim -/

/-- Within the range of the arithmetic an update of any address succeeds. -/
theorem update_ok {F P : Nat} (h : Inv w b F P) (hF : SCALE * F < U256) (a : Addr) :
    (∃ n, queryPending w.c b (w.view b) a = .ok n) ∧
      updateRewards w.c b (w.view b) a = .ok (updated w.c b (w.view b) a) := by
  have hacc := h.accrued_le
  have hsp := split_rate (lastUpdate_le h)
  have hcap := h.cap
  have hm := h.money
  have hl := lastUpdate_le h
  have hsum := h.sum_accrue (accrued w.c b (w.totalAt b.height))
  have hr : rewardPerToken w.c b (w.view b).total = .ok (w.c.perToken + accrued w.c b (w.totalAt b.height)) := by
    have e1 : additional w.c b (w.view b).total = .ok (accrued w.c b (w.totalAt b.height)) := by
      unfold additional
      split
      · rename_i ht
        have ht' : w.totalAt b.height = 0 := ht
        simp [accrued, ht']
      · rename_i ht
        simp only [bind_ok, subN_ok, mul256_ok, Except.ok.injEq]
        refine ⟨_, ⟨hl, rfl⟩, _, ⟨?_, rfl⟩, ?_⟩
        · rw [Nat.mul_comm _ SCALE]; omega
        · have ht' : ¬ w.totalAt b.height = 0 := ht
          unfold accrued
          rw [if_neg ht']
          rfl
    rw [rewardPerToken, e1, ok_bind, add256_ok]
    exact ⟨by omega, rfl⟩
  have hat := AMap.at_le_sum (fun k n => n * (w.c.perToken + accrued w.c b (w.totalAt b.height) -
      getD0 w.c.userPerToken k)) w.stakes.cur a
  have hat' : AMap.at? (fun k n => n * (w.c.perToken + accrued w.c b (w.totalAt b.height) -
      getD0 w.c.userPerToken k)) w.stakes.cur a =
      w.stake a * (w.c.perToken + accrued w.c b (w.totalAt b.height) - getD0 w.c.userPerToken a) := by
    unfold AMap.at? World.stake Snap.get; cases AMap.get w.stakes.cur a <;> simp
  rw [hat', ← h.weight a] at hat
  have hle : SCALE * getD0 w.c.pending a + (w.view b).of a *
      (w.c.perToken + accrued w.c b (w.totalAt b.height) - getD0 w.c.userPerToken a) ≤ SCALE * F := by
    have h1 := Nat.mul_le_mul_left SCALE (getD0_le_total w.c.pending a)
    have h2 : (w.view b).of a = w.stakeAt a b.height := rfl
    rw [Nat.mul_add] at hm
    rw [h2]
    omega
  have hE := Nat.mul_div_le ((w.view b).of a * (w.c.perToken + accrued w.c b (w.totalAt b.height) -
      getD0 w.c.userPerToken a)) SCALE
  have hFs : F < U128 := by
    have h1 : U256 ≤ SCALE * U128 := by decide +kernel
    exact Nat.lt_of_mul_lt_mul_left (Nat.lt_of_lt_of_le hF h1)
  have hpe : getD0 w.c.pending a + earned w.c (w.view b) a
      (w.c.perToken + accrued w.c b (w.totalAt b.height)) ≤ F := by
    refine Nat.le_of_mul_le_mul_left (?_ : SCALE * _ ≤ SCALE * F) SCALE_pos
    rw [Nat.mul_add]
    unfold earned
    omega
  have he : rewardsEarned w.c (w.view b) a (w.c.perToken + accrued w.c b (w.totalAt b.height)) =
      .ok (earned w.c (w.view b) a (w.c.perToken + accrued w.c b (w.totalAt b.height))) := by
    simp only [rewardsEarned, bind_ok, subN_ok, mul256_ok, to128_ok]
    have := h.ule a
    refine ⟨_, ⟨by omega, rfl⟩, _, ⟨by omega, rfl⟩, ?_, rfl⟩
    have : ∀ x, x = earned w.c (w.view b) a (w.c.perToken + accrued w.c b (w.totalAt b.height)) → x < U128 := by
      intro x hx; omega
    exact this _ rfl
  refine ⟨⟨earned w.c (w.view b) a (w.c.perToken + accrued w.c b (w.totalAt b.height)) +
    getD0 w.c.pending a, ?_⟩, ?_⟩
  · rw [queryPending, hr, ok_bind, he, ok_bind, add128_ok]
    exact ⟨by omega, rfl⟩
  · have ha : add128 (getD0 w.c.pending a) (earned w.c (w.view b) a
      (w.c.perToken + accrued w.c b (w.totalAt b.height))) = .ok (getD0 w.c.pending a + earned w.c (w.view b) a
      (w.c.perToken + accrued w.c b (w.totalAt b.height))) := by
      rw [add128_ok]; exact ⟨by omega, rfl⟩
    rw [updateRewards, hr, ok_bind, he, ok_bind, ha, ok_bind]
    rfl

/-- C34. A claim pays exactly what the query reports, out of the contract's holdings, and leaves nothing
to claim in that block. -/
theorem C34_claim {a : Addr} {out : Pay} (h : sys.Reach w b log) (hb : b.le b')
    (hs : sys.step w b' (.exec a .claim) = .ok (w', out)) :
    ∃ n, queryPending w.c b' (w.view b') a = .ok n ∧ n ≠ 0 ∧ out = some (a, n) ∧
      coins w' a = coins w a + n ∧ coins w' w.self + n = coins w w.self ∧
      (∀ q, q ≠ a → q ≠ w.self → coins w' q = coins w q) ∧
      ∀ m, queryPending w'.c b' (w'.view b') a = .ok m → m = 0 := by
  have hi := (inv_reach h).later hb
  cases step_effect hs with
  | other hsr self stakes totals hc =>
    rcases hc with ⟨s, m, he, hm, hl⟩ | ⟨s, t, n, he, _⟩ | ⟨t, n, he, _⟩ | ⟨s, n, he, _⟩
    · cases he; exact absurd rfl hm
    · cases he
    · cases he
    · cases he
  | claim ha hu h0 hl =>
    rename_i l
    have hm := fun q => Ledger.move_get hl (Ne.symm ha) q
    have ep : getD0 (updated w.c b' (w.view b') a).pending a = getD0 w.c.pending a +
        earned w.c (w.view b') a (w.c.perToken + accrued w.c b' (w.view b').total) := by
      simp only [updated, getD0_set, if_true]
    refine ⟨_, ?_, h0, rfl, ?_, ?_, ?_, ?_⟩
    · simp only [updateRewards, bind_ok, add128_ok] at hu
      obtain ⟨r, h1, e, h2, _, ⟨h3, _⟩, _⟩ := hu
      have e1 := rewardPerToken_inv h1
      have e2 := rewardsEarned_inv h2
      rw [queryPending, h1, ok_bind, h2, ok_bind, add128_ok, ep]
      subst e1 e2
      exact ⟨by omega, by omega⟩
    · unfold coins
      rw [(hm a).2, if_neg ha, if_pos rfl]
    · unfold coins
      have := (hm w.self)
      rw [this.2, if_pos rfl]
      omega
    · intro q h1 h2
      unfold coins
      rw [(hm q).2, if_neg h2, if_neg h1]
    · intro m hq
      have e := queryPending_inv hq
      have hz : accrued { updated w.c b' (w.view b') a with
          pending := AMap.set (updated w.c b' (w.view b') a).pending a 0 } b'
          (World.view { w with c := { updated w.c b' (w.view b') a with
            pending := AMap.set (updated w.c b' (w.view b') a).pending a 0 }, ledger := l } b').total = 0 :=
        accrued_zero rfl
      simp only at e
      rw [hz] at e
      rw [e]
      simp [getD0_set, earned, updated]

/-- C34. As long as the amount ever funded is below `2^256 / 10^39` (about `1.15 * 10^38`), the rewards of
everybody can be queried and claimed in every block, and no stake change is blocked by this contract. -/
theorem C34_live (h : sys.Reach w b log) (hb : b.le b') (hF : SCALE * funded log < U256) :
    (∀ a, ∃ n, queryPending w.c b' (w.view b') a = .ok n ∧
      (a ≠ w.self → n ≠ 0 → ∃ w', sys.step w b' (.exec a .claim) = .ok (w', some (a, n)))) ∧
    (∀ a n, w.total - w.stake a + n < U128 →
      ∃ w', sys.step w b' (.setStake a n true) = .ok (w', none) ∧ w'.stake a = n) := by
  have hi := (inv_reach h).later hb
  constructor
  · intro a
    obtain ⟨⟨n, hq⟩, hu⟩ := update_ok hi hF a
    refine ⟨n, hq, fun ha hn => ?_⟩
    have hqv := queryPending_inv hq
    have hp : AMap.get (updated w.c b' (w.view b') a).pending a = some n := by
      simp only [updated, AMap.get_set_self, hqv]
    have hbal : n ≤ getD0 w.ledger w.self := by
      have := C34_solvent h hb [(a, n)] (by simp) (by simpa using hq)
      simpa [coins] using this
    obtain ⟨l, hl⟩ := Ledger.move_total_ok (b := a) hbal hi.led
    have hc : execClaim w.c b' (w.view b') a = .ok ({ updated w.c b' (w.view b') a with
        pending := AMap.set (updated w.c b' (w.view b') a).pending a 0 }, some (a, n)) := by
      rw [execClaim, hu, ok_bind]
      simp only [hp, orErr, ok_bind, require, hn, ne_eq, not_false_eq_true, decide_true, if_true]
    refine ⟨{ w with c := { updated w.c b' (w.view b') a with
        pending := AMap.set (updated w.c b' (w.view b') a).pending a 0 }, ledger := l }, ?_⟩
    simp only [sys, require, if_true, ok_bind, step, honest, ha, ne_eq, not_false_eq_true, decide_true, exec, hc,
      settle, hl]
  · intro a n hn
    obtain ⟨_, hu⟩ := update_ok hi hF a
    have hw : recordStake w b' a n = .ok { w with
        stakes := w.stakes.save a n b'.height
        totals := w.totals.save () (w.total - w.stake a + n) b'.height } := by
      simp only [recordStake, require, hn, decide_true, if_true, ok_bind]
    have hv := view_record hi.up1 hi.up2 hw
    refine ⟨{ w with
        stakes := w.stakes.save a n b'.height
        totals := w.totals.save () (w.total - w.stake a + n) b'.height
        c := updated w.c b' (w.view b') a }, ?_, ?_⟩
    · simp only [sys, require, if_true, ok_bind, step, hw, exec, hv, decide_true, hu, settle]
    · simp [World.stake, Snap.get_save]

/-- C34. Rewards are added only by the owner, with the tokens, after the previous period has ended. -/
theorem C34_fund {a : Addr} {n : Nat} {out : Pay} (hs : sys.step w b' (.fund a n) = .ok (w', out)) :
    w.c.ownership.owner = some a ∧ w.c.finish ≤ b'.height ∧ coins w' w.self = coins w w.self + n ∧
      coins w' a + n = coins w a ∧ w'.c.finish = b'.height + w.c.duration ∧
      w'.c.rate = n / w.c.duration ∧ w'.c.rate ≠ 0 := by
  cases step_effect hs with
  | other hsr self stakes totals hc =>
    rcases hc with ⟨s, m, he, hm, hl⟩ | ⟨s, t, n, he, _⟩ | ⟨t, n, he, _⟩ | ⟨s, n, he, _⟩ <;> cases he
  | fund ha ho hu hf hd hr hl =>
    have h1 := Ledger.move_get hl ha w.self
    have h2 := Ledger.move_get hl ha a
    refine ⟨ho, hf, ?_, ?_, rfl, rfl, hr⟩
    · unfold coins; rw [h1.2, if_neg (Ne.symm ha), if_pos rfl]
    · unfold coins; rw [h2.2, if_pos rfl]; omega

/-- C34. The length of the reward periods is set only by the owner and only between periods; nothing else
but funding changes the period or the rate. -/
theorem C34_period {call : Call} {out : Pay} (hs : sys.step w b' call = .ok (w', out)) :
    (w'.c.duration ≠ w.c.duration → ∃ a d, call = .exec a (.updateRewardDuration d) ∧
      w.c.ownership.owner = some a ∧ w.c.finish ≤ b'.height ∧ w'.c.duration = d ∧ d ≠ 0) ∧
    (w'.c.finish ≠ w.c.finish ∨ w'.c.rate ≠ w.c.rate → ∃ a n, call = .fund a n) := by
  have hs0 := hs
  cases step_effect hs with
  | other hsr self stakes totals hc =>
    refine ⟨fun hd => ?_, fun hd => ?_⟩
    · rcases hc with ⟨s, m, rfl, hm, hl⟩ | ⟨s, t, n, he, _, _, hc⟩ | ⟨t, n, he, _, _, hc⟩ |
        ⟨s, n, he, _, _, hc⟩
      · simp only [sys, bind_ok, require_ok, step, decide_eq_true_eq] at hs0
        obtain ⟨_, _, _, _, _, _, ⟨c, o⟩, he, hse⟩ := hs0
        have hcc : w'.c = c := by
          unfold settle at hse
          split at hse
          · cases hse; rfl
          · simp only [bind_ok, Except.ok.injEq, Prod.mk.injEq] at hse
            obtain ⟨_, _, rfl, _⟩ := hse; rfl
        rw [hcc] at hd ⊢
        cases m with
        | stakeChangeHook a =>
          simp only [exec, bind_ok, require_ok, Except.ok.injEq, Prod.mk.injEq] at he
          obtain ⟨_, _, _, h1, rfl, _⟩ := he
          rw [updateRewards_inv h1] at hd; exact absurd rfl hd
        | claim => exact absurd rfl hm
        | receive f n =>
          simp only [exec, bind_ok, require_ok, Except.ok.injEq, Prod.mk.injEq] at he
          obtain ⟨_, _, _, h1, rfl, _⟩ := he
          obtain ⟨_, _, _, _, _, _, rfl⟩ := fund_inv h1
          exact absurd rfl hd
        | fund n =>
          simp only [exec, bind_ok, require_ok, Except.ok.injEq, Prod.mk.injEq] at he
          obtain ⟨_, _, _, _, _, h1, rfl, _⟩ := he
          obtain ⟨_, _, _, _, _, _, rfl⟩ := fund_inv h1
          exact absurd rfl hd
        | updateRewardDuration d =>
          simp only [exec, execUpdateDuration, bind_ok, Ownership.assertOwner_ok, require_ok,
            decide_eq_true_eq, Except.ok.injEq, Prod.mk.injEq] at he
          obtain ⟨s1, ⟨_, h1, _, h2, _, h3, rfl⟩, rfl, rfl⟩ := he
          exact ⟨_, _, rfl, h1, h2, rfl, h3⟩
        | updateOwnership x =>
          simp only [exec, bind_ok, Except.ok.injEq, Prod.mk.injEq] at he
          obtain ⟨o, h1, rfl, rfl⟩ := he
          exact absurd rfl hd
      · rw [hc] at hd; exact absurd rfl hd
      · rw [hc] at hd; exact absurd rfl hd
      · rw [hc] at hd; exact absurd rfl hd
    · rw [hsr.finish, hsr.rate] at hd; simp at hd
  | claim ha hu h0 hl => exact ⟨fun h => absurd rfl h, fun h => by simp [updated] at h⟩
  | fund ha ho hu hf hd hr hl => exact ⟨fun h => absurd rfl h, fun _ => ⟨_, _, rfl⟩⟩
  | stake hw hu =>
    obtain ⟨_, rfl⟩ := recordStake_inv hw
    exact ⟨fun h => absurd rfl h, fun h => by simp [updated] at h⟩

/-- The value of the query after an update of any address in the same block. -/
theorem pending_after {F P : Nat} (hi : Inv w b F P) (a q : Addr) (k : Stakes)
    (hk : k.of q = w.stakeAt q b.height) :
    getD0 (updated w.c b (w.view b) a).pending q +
        earned (updated w.c b (w.view b) a) k q (updated w.c b (w.view b) a).perToken =
      getD0 w.c.pending q + earned w.c (w.view b) q (w.c.perToken + accrued w.c b (w.view b).total) := by
  by_cases hq : a = q
  · subst hq
    simp [updated, getD0_set, earned]
  · simp only [updated, getD0_set, hq, if_false, earned, hk]
    rfl

/-- The value of what `q` can claim does not change but by its own claim. -/
theorem others_value {call : Call} {out : Pay} {q : Addr} (h : sys.Reach w b log) (hb : b.le b')
    (hs : sys.step w b' call = .ok (w', out)) (hc : call ≠ .exec q .claim) :
    getD0 w'.c.pending q + earned w'.c (w'.view b') q (w'.c.perToken + accrued w'.c b' (w'.view b').total) =
      getD0 w.c.pending q + earned w.c (w.view b') q (w.c.perToken + accrued w.c b' (w.view b').total) := by
  have hi := (inv_reach h).later hb
  cases step_effect hs with
  | other hsr self stakes totals hc =>
    have hv : w'.view b' = w.view b' := by
      unfold World.view World.totalAt World.stakeAt; rw [stakes, totals]
    unfold earned accrued applicable
    rw [hv, hsr.pending, hsr.userPerToken, hsr.perToken, hsr.rate, hsr.finish, hsr.lastUpdate]
  | claim ha hu h0 hl =>
    rename_i a l
    have hne : ¬ a = q := by rintro rfl; exact hc rfl
    have hz : ∀ t, accrued { updated w.c b' (w.view b') a with
          pending := AMap.set (updated w.c b' (w.view b') a).pending a 0 } b' t = 0 :=
      fun t => accrued_zero rfl
    rw [hz, ← pending_after hi a q (w.view b') rfl]
    simp only [getD0_set, hne, if_false]
    rfl
  | fund ha ho hu hf hd hr hl =>
    rename_i a n' l
    have hz : ∀ t, accrued { updated w.c b' (w.view b') a with
          finish := b'.height + w.c.duration, rate := n' / w.c.duration, lastUpdate := b'.height } b' t = 0 :=
      fun t => accrued_zero (by simp [applicable])
    rw [hz, ← pending_after hi a q (w.view b') rfl]
    rfl
  | stake hw hu =>
    rename_i a x w1
    have hv := view_record hi.up1 hi.up2 hw
    obtain ⟨hn, rfl⟩ := recordStake_inv hw
    have hz : ∀ t, accrued (updated w.c b' (w.view b') a) b' t = 0 := fun t => accrued_zero rfl
    simp only at hv ⊢
    rw [hv, hz, ← pending_after hi a q (w.view b') rfl, Nat.add_zero]
    refine congrArg (fun k => _ + earned _ k q _) ?_
    exact hv

/-- C34. In a given block only an address's own claim changes what it can claim: stake changes, fundings
and claims of others, even its own stake changes, leave it as it was. -/
theorem C34_others {call : Call} {out : Pay} {q : Addr} {n m : Nat} (h : sys.Reach w b log) (hb : b.le b')
    (hs : sys.step w b' call = .ok (w', out)) (hc : call ≠ .exec q .claim)
    (hq : queryPending w.c b' (w.view b') q = .ok n) (hq' : queryPending w'.c b' (w'.view b') q = .ok m) :
    m = n := by
  rw [queryPending_inv hq, queryPending_inv hq']
  exact others_value h hb hs hc

/-- C63. Every address has received, or can claim, its exact share of the rewards of all blocks so far
(in proportion to the stakes at the beginning of each block), less a rounding loss of at most two units
of the token per transaction of the history. -/
theorem C63_share {a : Addr} {n : Nat} (h : sys.Reach w b log) (hb : b.le b')
    (hq : queryPending w.c b' (w.view b') a = .ok n) :
    ((received a log + n : Nat) : ℚ) ≤ share w log a b'.height ∧
      share w log a b'.height ≤ (received a log + n : Nat) + 2 * (log.length + 1 : Nat) := by
  have hi := (inv_reach h).later hb
  have hsi := sinv_reach h
  have hB := Bounds.update hi hsi.rates (hsi.bounds a) a
  have hS : (0 : ℚ) < SCALE := by exact_mod_cast SCALE_pos
  have e : n = getD0 (updated w.c b' (w.view b') a).pending a := by
    rw [queryPending_inv hq]; simp only [updated, getD0_set, if_true]
  have hsh : share w log a b'.height = share w log a (applicable w.c b') := by
    have hap := applicable_le (s := w.c) (b := b')
    refine share_zero hap.1 (fun x h1 h2 => ?_)
    have hl := lastUpdate_le hi
    rw [hsi.rates x (by omega), if_neg (by unfold applicable at h1; omega)]
  have hsc : share { w with c := updated w.c b' (w.view b') a } log a (applicable w.c b') =
      share w log a (applicable w.c b') := share_congr (fun _ _ => ⟨rfl, rfl, rfl⟩)
  obtain ⟨h1, h2⟩ := hB
  have el : ({ w with c := updated w.c b' (w.view b') a } : World).c.lastUpdate = applicable w.c b' := rfl
  rw [el, hsc, ← hsh] at h1 h2
  simp only [updated_user, Nat.sub_self, Nat.mul_zero, ← e, Nat.cast_zero, add_zero] at h1 h2
  have e2 : ((2 * log.length + 2 : Nat) : ℚ) = 2 * (log.length + 1 : Nat) := by push_cast; ring
  rw [e2, ← mul_add] at h2
  exact ⟨le_of_mul_le_mul_left h1 hS, le_of_mul_le_mul_left h2 hS⟩

end Verif.ExternalRewards
