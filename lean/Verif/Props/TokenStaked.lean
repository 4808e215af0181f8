import Verif.Proofs.TokenStaked
import Verif.Props.ActiveThreshold
/-!
# C30-C32: dao-voting-token-staked
-/

namespace Verif.TokenStaked
open Verif Verif.Active Verif.Spec.TokenStaked
open Verif.Cw20Stake (validateDuration HookMsg hookMsgs)

/-! ## C30 -/

/-- **C30.** The voting powers and the total reported for a height are those after the last call below that
height, whatever is called from then on. -/
theorem C30_token_history {w w' : World} {b b' : Block} {log log' : List (Ev World Block Call Out)}
    (h : sys.Reach w b log) (hr : sys.Run w b log' w' b') {x : Nat} (hb : b.height < x)
    (hx : ∀ e ∈ log', x ≤ e.env.height) (a : Addr) :
    powerAt w'.c a x = w.c.stakedOf a ∧ totalPowerAt w'.c x = w.c.total := by
  unfold powerAt totalPowerAt
  rw [snapshotted.1.current h hr hb hx a, snapshotted.2.current h hr hb hx ()]
  exact ⟨rfl, rfl⟩

/-- **C30.** What is reported for a height does not change through calls at or above that height. -/
theorem C30_token_stable {w w' : World} {b b' : Block} {log log' : List (Ev World Block Call Out)}
    (h : sys.Reach w b log) (hr : sys.Run w b log' w' b') {x : Nat}
    (hx : ∀ e ∈ log', x ≤ e.env.height) (a : Addr) :
    powerAt w'.c a x = powerAt w.c a x ∧ totalPowerAt w'.c x = totalPowerAt w.c x := by
  unfold powerAt totalPowerAt
  rw [snapshotted.1.stable h hr hx a, snapshotted.2.stable h hr hx ()]
  exact ⟨rfl, rfl⟩

/-! ## C31 -/

/-- **C31.** In every reachable state the total staked is the sum of the staked balances. -/
theorem C31_total {w : World} {b : Block} {log : List (Ev World Block Call Out)} (h : sys.Reach w b log) :
    w.c.total = Verif.total w.c.staked.cur := (inv_reach h).sum

/-- **C31.** At every height the total power is the sum of the powers of all addresses: over any list of
addresses without repetition that has everybody with power. -/
theorem C31_total_at_height {w : World} {b : Block} {log : List (Ev World Block Call Out)}
    (h : sys.Reach w b log) (x : Nat) {L : List Addr} (hL : L.Nodup)
    (hc : ∀ a, a ∉ L → powerAt w.c a x = 0) :
    totalPowerAt w.c x = (L.map (fun a => powerAt w.c a x)).sum := by
  obtain ⟨w1, b1, l1, l2, rfl, h1, hr, hx, hb⟩ := h.split x
  rcases hb with hb | ⟨rfl, hi⟩
  · have e := C30_token_history h1 hr hb hx
    have hi := inv_reach h1
    rw [(e 0).2, hi.sum, ← total_eq_sum hi.wf hL (fun a ha => by rw [← stakedOf_cur, ← (e a).1]; exact hc a ha)]
    congr 1
    apply List.map_congr_left
    intro a _; rw [(e a).1]; rfl
  · have e := fun a => C30_token_stable h1 hr hx a
    obtain ⟨h3, h4, _⟩ := init_shape hi
    have z : ∀ a, powerAt w1.c a x = 0 := by intro a; unfold powerAt; rw [h3]; rfl
    rw [(e 0).2]
    have z' : totalPowerAt w1.c x = 0 := by unfold totalPowerAt; rw [h4]; rfl
    rw [z']
    symm
    apply List.sum_eq_zero
    intro n hn
    obtain ⟨a, _, rfl⟩ := List.mem_map.1 hn
    rw [(e a).1, z]

theorem self_run {w w' : World} {b b' : Block} {log : List (Ev World Block Call Out)}
    (hr : sys.Run w b log w' b') : w'.self = w.self := by
  induction hr with
  | refl => rfl
  | step hr hb hs ih =>
    rw [← ih]
    cases step_effect hs <;> rfl

/-- **C31.** The contract's coins are, at every point of every history, exactly the staked coins, the
claims, what it held at instantiation and what was donated since. -/
theorem C31_coins {w0 w : World} {b0 b : Block} {log : List (Ev World Block Call Out)}
    (h0 : sys.init b0 w0) (hr : sys.Run w0 b0 log w b) :
    coins w w.self = w.c.total + w.c.claims.owed + coins w0 w0.self + donated w0.self log := by
  induction hr with
  | refl =>
    obtain ⟨h1, h2, h3, _⟩ := init_shape h0
    have z : w0.c.total = 0 := by unfold State.total; rw [h2]; rfl
    have z' : w0.c.claims.owed = 0 := by rw [h3]; rfl
    simp only [z, z', donated]; omega
  | step hr hb hs ih =>
    have hself := self_run hr
    have hi := inv_reach ⟨b0, w0, h0, hr⟩
    rename_i w1 w2 b1 l env call out
    cases step_effect hs with
    | stake a n l ha hn hl =>
      obtain ⟨h1, h2⟩ := Ledger.move_get hl ha w1.self
      have e : State.total (afterStake w1.c env a n) = w1.c.total + n := total_save _ _ _
      simp only [coins, h2, Ne.symm ha, if_true, if_false, donated, e] at ih ⊢
      show _ = _ + w1.c.claims.owed + _ + _
      omega
    | payout a n l _ ha hn hsa ht hd hl hh =>
      obtain ⟨h1, h2⟩ := Ledger.move_get hl (Ne.symm ha) w1.self
      have e : State.total (afterUnstake w1.c env a n) = w1.c.total - n := total_save _ _ _
      simp only [coins, h2, if_true, donated, e] at ih ⊢
      show _ = _ + w1.c.claims.owed + _ + _
      omega
    | unbond a n d _ ha hn hsa ht hd hlen hh =>
      have e : State.total { afterUnstake w1.c env a n with claims := w1.c.claims.create a n (d.after env) } =
        w1.c.total - n := total_save _ _ _
      simp only [coins, donated, Claims.owed_create] at ih ⊢
      rw [e]; omega
    | claim a n c l ha hc hn hl =>
      obtain ⟨h1, h2⟩ := Ledger.move_get hl (Ne.symm ha) w1.self
      have := Claims.owed_claim hc
      simp only [coins, h2, if_true, donated] at ih ⊢
      show _ = w1.c.total + _ + _ + _
      omega
    | admin m c hsm hm =>
      have e : donated w0.self (⟨w1, env, .exec w1.c.dao m, {}, { w1 with c := c }⟩ :: l) =
        donated w0.self l := by
        simp [donated]
      rw [e]
      simp only [coins, State.total, hsm.total, hsm.claims] at ih ⊢; exact ih
    | transfer a d n l ha hl =>
      simp only [coins, Ledger.move_other hl (Ne.symm ha), donated, ← hself] at ih ⊢
      omega
    | mint d n l hsup hl =>
      simp only [coins, Ledger.credit_get hl, donated, ← hself] at ih ⊢
      split
      · rename_i hd; subst hd; omega
      · rename_i hd; omega
    | burn a n l ha hl =>
      simp only [coins, Ledger.debit_get hl, ha, if_false, donated] at ih ⊢
      omega

/-- **C31.** The contract always holds the staked coins and the claims. -/
theorem C31_covered {w : World} {b : Block} {log : List (Ev World Block Call Out)} (h : sys.Reach w b log) :
    w.c.total + w.c.claims.owed ≤ coins w w.self := by
  obtain ⟨b0, w0, h0, hr⟩ := h
  have := C31_coins h0 hr
  omega

/-- **C31.** Everybody's account balances: what an address put in is what it has staked, what it has in
claims, and what it took out. So nobody withdraws more than they staked. -/
theorem C31_account {w : World} {b : Block} {log : List (Ev World Block Call Out)} (h : sys.Reach w b log)
    (a : Addr) (ha' : a ≠ w.self) :
    putIn a log = w.c.stakedOf a + claimSum (w.c.claims.of a) + takenOut a log := by
  obtain ⟨b0, w0, h0, hr⟩ := h
  rw [self_run hr] at ha'
  induction hr with
  | refl =>
    obtain ⟨h1, h2, h3, _⟩ := init_shape h0
    have z : w0.c.stakedOf a = 0 := by unfold State.stakedOf; rw [h1]; rfl
    have z' : claimSum (w0.c.claims.of a) = 0 := by rw [h3]; rfl
    simp only [z, z', putIn, takenOut]
  | step hr hb hs ih =>
    have hself := self_run hr
    have ha2 := ha'
    rw [← hself] at ha2
    have hi := inv_reach ⟨b0, w0, h0, hr⟩
    rename_i w1 w2 b1 l env call out
    have stk : ∀ (x y : Addr) (v : Nat), ((w1.c.staked.save x v env.height).get y).getD 0 =
        if x = y then v else w1.c.stakedOf y := by
      intro x y v; rw [Snap.get_save]; split <;> rfl
    cases step_effect hs with
    | stake x n l ha hn hl =>
      obtain ⟨h1, h2⟩ := Ledger.move_get hl ha a
      have e : (afterStake w1.c env x n).stakedOf a = if x = a then w1.c.stakedOf x + n else w1.c.stakedOf a :=
        stk _ _ _
      simp only [putIn, takenOut, e, coins, h2]
      show _ = _ + claimSum (w1.c.claims.of a) + _
      by_cases hxa : x = a
      · subst hxa; simp only [if_true]; omega
      · simp only [hxa, if_false]; omega
    | payout x n l _ ha hn hsa ht hd hl hh =>
      obtain ⟨h1, h2⟩ := Ledger.move_get hl (Ne.symm ha) a
      have e : (afterUnstake w1.c env x n).stakedOf a =
        if x = a then w1.c.stakedOf x - n else w1.c.stakedOf a := stk _ _ _
      simp only [putIn, takenOut, e, coins, h2, ha2, if_false]
      show _ = _ + claimSum (w1.c.claims.of a) + _
      by_cases hxa : x = a
      · subst hxa; simp only [if_true]; omega
      · simp only [hxa, Ne.symm hxa, if_false]; omega
    | unbond x n d _ ha hn hsa ht hd hlen hh =>
      have e : State.stakedOf { afterUnstake w1.c env x n with claims := w1.c.claims.create x n (d.after env) } a =
        if x = a then w1.c.stakedOf x - n else w1.c.stakedOf a := stk _ _ _
      have e2 : claimSum (Claims.of (w1.c.claims.create x n (d.after env)) a) =
          claimSum (w1.c.claims.of a) + if x = a then n else 0 := by
        unfold Claims.create
        rw [Claims.of_set]
        split
        · rename_i hx; subst hx; rw [Claims.claimSum_append]; simp [claimSum]
        · simp
      simp only [putIn, takenOut, coins, e2]
      rw [e]
      by_cases hxa : x = a
      · subst hxa; simp only [if_true]; omega
      · simp only [hxa, if_false]; omega
    | claim x n c l ha hc hn hl =>
      obtain ⟨h1, h2⟩ := Ledger.move_get hl (Ne.symm ha) a
      obtain ⟨hsum, rfl⟩ := Claims.claim_spec hc
      have := Claims.claimSum_partition (fun cl => cl.releaseAt.isExpired env) (w1.c.claims.of x)
      simp only [putIn, takenOut, coins, h2, ha2, if_false]
      show _ = w1.c.stakedOf a + _ + _
      rw [Claims.of_set]
      by_cases hxa : x = a
      · subst hxa; simp only [if_true]; omega
      · simp only [hxa, Ne.symm hxa, if_false]; omega
    | admin m c hsm hm =>
      have e1 : takenOut a (⟨w1, env, .exec w1.c.dao m, {}, { w1 with c := c }⟩ :: l) = takenOut a l := by
        cases m with
        | unstake n => exact absurd rfl (hm.1 n)
        | claim => exact absurd rfl hm.2
        | _ => simp [takenOut]
      have e2 : putIn a (⟨w1, env, .exec w1.c.dao m, {}, { w1 with c := c }⟩ :: l) = putIn a l := by
        simp [putIn]
      rw [e1, e2]
      simp only [State.stakedOf, hsm.staked, hsm.claims] at ih ⊢; exact ih
    | transfer x d n l ha hl => simp only [putIn, takenOut, Nat.add_zero]; exact ih
    | mint d n l hsup hl => simp only [putIn, takenOut, Nat.add_zero]; exact ih
    | burn x n l ha hl => simp only [putIn, takenOut, Nat.add_zero]; exact ih

/-- **C31.** Nobody takes out more than they put in. -/
theorem C31_no_overdraft {w : World} {b : Block} {log : List (Ev World Block Call Out)} (h : sys.Reach w b log)
    (a : Addr) (ha : a ≠ w.self) : takenOut a log ≤ putIn a log := by
  rw [C31_account h a ha]; omega

/-- **C31.** Whoever holds coins can stake them, and gets exactly that power. -/
theorem C31_stakeable {w : World} {b b' : Block} {log : List (Ev World Block Call Out)}
    (h : sys.Reach w b log) {a : Addr} (ha : a ≠ w.self) {n : Nat} (hn : n ≠ 0) (hc : n ≤ coins w a) :
    ∃ w' out, step w b' (.stake a n) = .ok (w', out) ∧ w'.c.stakedOf a = w.c.stakedOf a + n ∧
      w'.c.total = w.c.total + n ∧ out.hooks = hookMsgs w.c.hooks true a n := by
  have hi := inv_reach h
  have hcov := C31_covered h
  obtain ⟨l, hl⟩ := Ledger.move_total_ok (b := w.self) hc hi.supply
  have h1 := stakedOf_le hi a
  have h2 : getD0 w.ledger w.self + getD0 w.ledger a ≤ Verif.total w.ledger := by
    rw [total_eq, ← at_val, ← at_val]; exact AMap.at_add_at_le_sum _ _ (Ne.symm ha)
  have h3 := hi.supply
  simp only [coins] at hc hcov
  have e1 : add128 (w.c.stakedOf a) n = .ok (w.c.stakedOf a + n) := (add128_ok _ _ _).2 ⟨by omega, rfl⟩
  have e2 : add128 w.c.total n = .ok (w.c.total + n) := (add128_ok _ _ _).2 ⟨by omega, rfl⟩
  have he : execStake w.c b' a n = .ok (afterStake w.c b' a n, { hooks := hookMsgs w.c.hooks true a n }) := by
    simp only [execStake, require, hn, ne_eq, not_false_eq_true, decide_true, if_true, ok_bind, e1, e2]
    rfl
  refine ⟨{ w with ledger := l, c := afterStake w.c b' a n }, { hooks := hookMsgs w.c.hooks true a n }, ?_,
    ?_, total_save _ _ _, rfl⟩
  · simp only [step, require, ha, ne_eq, not_false_eq_true, decide_true, if_true, ok_bind, hl, he]
  · show ((w.c.staked.save a (w.c.stakedOf a + n) b'.height).get a).getD 0 = _
    rw [Snap.get_save, if_pos rfl]; rfl

theorem settle_succeeds {w : World} {b : Block} {log : List (Ev World Block Call Out)}
    (h : sys.Reach w b log) (c : State) (out : Out)
    (hp : ∀ x n, out.pay = some (x, n) → n ≤ w.c.total + w.c.claims.owed) :
    ∃ w', settle w c out = .ok (w', out) ∧ w'.c = c := by
  have hcov := C31_covered h
  unfold settle
  cases ho : out.pay with
  | none => exact ⟨_, rfl, rfl⟩
  | some r =>
    obtain ⟨x, n⟩ := r
    have := hp x n ho
    obtain ⟨l, hl⟩ := Ledger.move_total_ok (l := w.ledger) (a := w.self) (b := x) (n := n)
      (by simp only [coins] at hcov; omega) (inv_reach h).supply
    simp only [hl, ok_bind]
    exact ⟨_, rfl, rfl⟩

/-- **C31.** Whoever has coins staked can unstake them, unless 100 of their claims are outstanding. -/
theorem C31_unstakeable {w : World} {b b' : Block} {log : List (Ev World Block Call Out)}
    (h : sys.Reach w b log) {a : Addr} (ha : a ≠ w.self) {n : Nat} (hn : n ≠ 0) (hs : n ≤ w.c.stakedOf a)
    (hcl : w.c.unstakingDuration = none ∨ (w.c.claims.of a).length < MAX_CLAIMS) :
    ∃ w' out, step w b' (.exec a (.unstake n)) = .ok (w', out) ∧
      w'.c.stakedOf a = w.c.stakedOf a - n := by
  have hi := inv_reach h
  have h1 := stakedOf_le hi a
  have e1 : sub128 (w.c.stakedOf a) n = .ok (w.c.stakedOf a - n) := (sub128_ok _ _ _).2 ⟨hs, rfl⟩
  have e2 : sub128 w.c.total n = .ok (w.c.total - n) := (sub128_ok _ _ _).2 ⟨by omega, rfl⟩
  have he : ∃ c out, exec w.c b' (Verif.total w.ledger) a (.unstake n) = .ok (c, out) ∧
      (∀ x k, out.pay = some (x, k) → k ≤ w.c.total + w.c.claims.owed) ∧
      c.staked = w.c.staked.save a (w.c.stakedOf a - n) b'.height := by
    simp only [exec, execUnstake, require, hn, ne_eq, not_false_eq_true, decide_true, if_true, ok_bind, e1,
      e2]
    unfold release
    simp only
    cases hd : w.c.unstakingDuration with
    | none =>
      refine ⟨_, _, rfl, ?_, rfl⟩
      intro x k hp; cases hp; omega
    | some d =>
      simp only
      rcases hcl with hcl | hcl
      · rw [hd] at hcl; cases hcl
      · rw [if_neg (by omega)]
        refine ⟨_, _, rfl, ?_, rfl⟩
        intro x k hp; cases hp
  obtain ⟨c, out, he, hp, hst⟩ := he
  obtain ⟨w', hw, hc⟩ := settle_succeeds h c out hp
  refine ⟨w', out, ?_, ?_⟩
  · simp only [step, require, ha, ne_eq, not_false_eq_true, decide_true, if_true, ok_bind, he, hw]
  · unfold State.stakedOf; rw [hc, hst, Snap.get_save, if_pos rfl]; rfl

/-- **C31.** Matured claims can always be claimed: the call pays exactly their sum and leaves the rest. -/
theorem C31_claimable {w : World} {b b' : Block} {log : List (Ev World Block Call Out)}
    (h : sys.Reach w b log) {a : Addr} (ha : a ≠ w.self)
    (hm : claimSum ((w.c.claims.of a).filter (fun cl => cl.releaseAt.isExpired b')) ≠ 0) :
    ∃ w' out, step w b' (.exec a .claim) = .ok (w', out) := by
  have hi := inv_reach h
  have hcov := C31_covered h
  have hsup := hi.supply
  simp only [coins] at hcov
  have h1 := getD0_le_total w.ledger w.self
  have h2 := Claims.of_le_owed w.c.claims a
  have h3 := Claims.claimSum_partition (fun cl => cl.releaseAt.isExpired b') (w.c.claims.of a)
  have h4 := Claims.sumMatured_total (b := b') (l := w.c.claims.of a) (acc := 0) (by omega)
  have he : ∃ c out, exec w.c b' (Verif.total w.ledger) a .claim = .ok (c, out) ∧
      (∀ x k, out.pay = some (x, k) → k ≤ w.c.total + w.c.claims.owed) := by
    have h5 : decide (0 + claimSum ((w.c.claims.of a).filter (fun cl => cl.releaseAt.isExpired b')) ≠ 0) =
        true := by rw [decide_eq_true_eq]; omega
    simp only [exec, execClaim, Claims.claimTokens, h4, ok_bind]
    rw [h5]
    simp only [require, if_true, ok_bind]
    refine ⟨_, _, rfl, ?_⟩
    intro x k hp; cases hp; omega
  obtain ⟨c, out, he, hp⟩ := he
  obtain ⟨w', hw, _⟩ := settle_succeeds h c out hp
  refine ⟨w', out, ?_⟩
  simp only [step, require, ha, ne_eq, not_false_eq_true, decide_true, if_true, ok_bind, he, hw]

/-- **C31.** A claim call pays its caller exactly the sum of the matured claims and leaves the others. No
other call removes or changes a claim. -/
theorem C31_claim {w w' : World} {b : Block} {a : Addr} {out : Out}
    (hs : step w b (.exec a .claim) = .ok (w', out)) :
    w'.c.claims.of a = (w.c.claims.of a).filter (fun cl => !cl.releaseAt.isExpired b) ∧
    coins w' a = coins w a + claimSum ((w.c.claims.of a).filter (fun cl => cl.releaseAt.isExpired b)) := by
  cases step_effect hs with
  | claim _ n c l ha hc hn hl =>
    obtain ⟨rfl, rfl⟩ := Claims.claim_spec hc
    obtain ⟨h1, h2⟩ := Ledger.move_get hl (Ne.symm ha) a
    exact ⟨by simp only; rw [Claims.of_set, if_pos rfl], by simp only [coins, h2, ha, if_true, if_false]⟩
  | admin _ c hsm hm => exact absurd rfl hm.2

theorem C31_claims_kept {w w' : World} {b : Block} {call : Call} {out : Out} {a : Addr}
    (hs : step w b call = .ok (w', out)) (hc : call ≠ .exec a .claim) :
    w.c.claims.of a <+: w'.c.claims.of a := by
  cases step_effect hs with
  | stake => exact List.prefix_refl _
  | payout => exact List.prefix_refl _
  | unbond x n d _ ha hn hsa ht hd hlen hh =>
    show _ <+: (w.c.claims.create x n (d.after b)).of a
    unfold Claims.create
    rw [Claims.of_set]
    split
    · rename_i hx; subst hx; exact List.prefix_append _ _
    · exact List.prefix_refl _
  | claim x n c l ha hcl hn hl =>
    obtain ⟨_, rfl⟩ := Claims.claim_spec hcl
    have hx : x ≠ a := fun h => hc (by rw [h])
    simp only; rw [Claims.of_set, if_neg hx]; exact List.prefix_refl _
  | admin m c hsm hm => simp only [hsm.claims]; exact List.prefix_refl _
  | transfer => exact List.prefix_refl _
  | mint => exact List.prefix_refl _
  | burn => exact List.prefix_refl _

/-- **C31.** Unstaking takes exactly the amount from the caller's power and gives it back as coins at once,
or as one claim released the unstaking duration later. -/
theorem C31_unstake {w w' : World} {b : Block} {a : Addr} {n : Nat} {out : Out}
    (hs : step w b (.exec a (.unstake n)) = .ok (w', out)) :
    n ≠ 0 ∧ n ≤ w.c.stakedOf a ∧ w'.c.stakedOf a = w.c.stakedOf a - n ∧ w'.c.total = w.c.total - n ∧
    out.hooks = hookMsgs w.c.hooks false a n ∧
    (match w.c.unstakingDuration with
     | none => coins w' a = coins w a + n ∧ w'.c.claims = w.c.claims
     | some d => coins w' a = coins w a ∧ w'.c.claims.of a = w.c.claims.of a ++ [⟨n, d.after b⟩]) := by
  have stk : ∀ (x : Nat), ((w.c.staked.save a x b.height).get a).getD 0 = x := by
    intro x; rw [Snap.get_save, if_pos rfl]; rfl
  cases step_effect hs with
  | payout _ _ l _ ha hn hsa ht hd hl hh =>
    obtain ⟨h1, h2⟩ := Ledger.move_get hl (Ne.symm ha) a
    refine ⟨hn, hsa, stk _, total_save _ _ _, hh, ?_⟩
    rw [hd]
    simp only [coins, h2, ha, if_true, if_false]
    exact ⟨trivial, rfl⟩
  | unbond _ _ d _ ha hn hsa ht hd hlen hh =>
    refine ⟨hn, hsa, stk _, total_save _ _ _, hh, ?_⟩
    rw [hd]
    refine ⟨rfl, ?_⟩
    show (w.c.claims.create a n (d.after b)).of a = _
    unfold Claims.create
    rw [Claims.of_set, if_pos rfl]
  | admin _ c hsm hm => exact absurd rfl (hm.1 n)

/-- **C31.** Only the DAO changes the unstaking duration, the active threshold and the hooks, and only to
valid thresholds. -/
theorem C31_admin {w w' : World} {b : Block} {call : Call} {out : Out}
    (hs : step w b call = .ok (w', out)) :
    w'.c.dao = w.c.dao ∧
    (w'.c.unstakingDuration ≠ w.c.unstakingDuration ∨ w'.c.threshold ≠ w.c.threshold ∨
      w'.c.hooks ≠ w.c.hooks → ∃ m, call = .exec w.c.dao m) := by
  cases step_effect hs with
  | admin m c hsm hm => exact ⟨hsm.dao, fun _ => ⟨m, rfl⟩⟩
  | _ => exact ⟨rfl, fun h => by rcases h with h | h | h <;> exact absurd rfl h⟩

/-! ## C32 -/

/-- The stored threshold is valid: a percentage in (0, 1], a count that is not zero. -/
theorem threshold_valid {w : World} {b : Block} {log : List (Ev World Block Call Out)}
    (h : sys.Reach w b log) : w.c.threshold = none ∨ (∃ n, w.c.threshold = some (.absolute n) ∧ n ≠ 0) ∨
      ∃ p, w.c.threshold = some (.percentage p) ∧ assertValidPercentage p = .ok () := by
  have count : ∀ n s, assertValidCount n s = .ok () → n ≠ 0 := by
    intro n s hv
    simp only [assertValidCount, bind_ok, require_ok, decide_eq_true_eq] at hv
    exact hv.choose_spec.1
  refine Sys.Reach.induct (P := fun w _ _ => w.c.threshold = none ∨
    (∃ n, w.c.threshold = some (.absolute n) ∧ n ≠ 0) ∨
    ∃ p, w.c.threshold = some (.percentage p) ∧ assertValidPercentage p = .ok ()) ?_ ?_ h
  · intro b w hi
    obtain ⟨dao, d, t, hi, hset, _⟩ := hi
    simp only [instantiate, bind_ok, Except.ok.injEq] at hi
    obtain ⟨_, _, _, hp, hi⟩ := hi
    have ht : w.c.threshold = t := by rw [← hi]
    have hc : ∃ s, checkCount t s = .ok () := by
      cases hset with
      | existing h => exact ⟨_, ht ▸ h⟩
      | new bs ms db h hl =>
        simp only [replyNew, bind_ok] at h
        obtain ⟨s, _, _, _, _, h, _⟩ := h
        exact ⟨s, ht ▸ h⟩
      | factory h =>
        simp only [replyFactory, bind_ok] at h
        obtain ⟨s, _, _, h, _⟩ := h
        exact ⟨s, ht ▸ h⟩
    obtain ⟨s, hc⟩ := hc
    rw [ht]
    match t, hp, hc with
    | none, _, _ => exact Or.inl rfl
    | some (.absolute n), _, hc => exact Or.inr (Or.inl ⟨n, rfl, count n s hc⟩)
    | some (.percentage p), hp, _ => exact Or.inr (Or.inr ⟨p, rfl, hp⟩)
  · intro w b l env call out w' _ ih hb hs
    have hs0 := hs
    cases step_effect hs with
    | admin m c hsm hm =>
      simp only [sys, step, bind_ok] at hs0
      obtain ⟨_, _, ⟨c1, o1⟩, hx, hset⟩ := hs0
      obtain ⟨rfl, hw⟩ := settle_inv hset
      have hc : c1 = c := by
        rcases hw with ⟨_, hw⟩ | ⟨_, _, _, _, _, hw⟩
        · exact (congrArg World.c hw).symm
        · exact (congrArg World.c hw).symm
      subst hc
      cases m with
      | unstake k => exact absurd rfl (hm.1 k)
      | claim => exact absurd rfl hm.2
      | updateConfig d =>
        simp only [exec, bind_ok, Except.ok.injEq, Prod.mk.injEq] at hx
        obtain ⟨_, _, _, _, rfl, _⟩ := hx; exact ih
      | addHook d =>
        simp only [exec, bind_ok, Except.ok.injEq, Prod.mk.injEq] at hx
        obtain ⟨_, _, _, _, rfl, _⟩ := hx; exact ih
      | removeHook d =>
        simp only [exec, bind_ok, Except.ok.injEq, Prod.mk.injEq] at hx
        obtain ⟨_, _, _, _, rfl, _⟩ := hx; exact ih
      | updateActiveThreshold t =>
        simp only [exec, bind_ok, Except.ok.injEq, Prod.mk.injEq] at hx
        obtain ⟨_, _, _, hv, rfl, _⟩ := hx
        simp only
        match t, hv with
        | none, _ => exact Or.inl rfl
        | some (.absolute n), hv => exact Or.inr (Or.inl ⟨n, rfl, count n _ hv⟩)
        | some (.percentage p), hv => exact Or.inr (Or.inr ⟨p, rfl, hv⟩)
    | _ => exact ih

/-- **C32.** In every reachable state the query answers, and answers as documented: true without a
threshold, that the count is staked, or that the fraction of the supply is staked up to 1e-9 of a token. -/
theorem C32_token_active {w : World} {b : Block} {log : List (Ev World Block Call Out)}
    (h : sys.Reach w b log) :
    ∃ r, active w.c (Verif.total w.ledger) = .ok r ∧
      (r = true ↔ match w.c.threshold with
        | none => True
        | some (.absolute n) => n ≤ w.c.total
        | some (.percentage p) =>
          fraction p * (Verif.total w.ledger : ℚ) < (w.c.total : ℚ) + 1 / 10 ^ 9) := by
  have hsup := (inv_reach h).supply
  unfold active
  rcases threshold_valid h with ht | ⟨n, ht, _⟩ | ⟨p, ht, hv⟩
  · exact ⟨true, by rw [ht]; rfl, by rw [ht]; simp⟩
  · exact ⟨decide (n ≤ w.c.total), by rw [ht]; rfl, by rw [ht]; simp⟩
  · rw [ht]; exact C32_percentage hsup hv

/-- The initial balances of a new token sum up without overflow, whatever the order. -/
theorem sumAmounts_eq {l : List (Addr × Nat)} {acc n : Nat} (h : sumAmounts l acc = .ok n) :
    n = acc + (l.map Prod.snd).sum := by
  induction l generalizing acc with
  | nil => simp only [sumAmounts, Except.ok.injEq] at h; simp [h]
  | cons e l ih =>
    obtain ⟨a, k⟩ := e
    simp only [sumAmounts, bind_ok, add128_ok] at h
    obtain ⟨_, ⟨_, rfl⟩, h⟩ := h
    rw [ih h]; simp; omega

/-- **C32.** A new token comes with initial holders other than the DAO, gets exactly the balances asked for
and the DAO's share, and a count can be reached by the initial holders without the DAO. -/
theorem C32_new_token {s : State} {bs mints : List (Addr × Nat)} {d : Option Nat}
    (h : replyNew s bs d = .ok mints) :
    0 < (bs.map Prod.snd).sum ∧
    (mints.map Prod.snd).sum = (bs.map Prod.snd).sum + d.getD 0 ∧
    (∀ e ∈ mints, e ∈ bs ∨ e.1 = s.dao) ∧
    ∀ n, s.threshold = some (.absolute n) → 0 < n ∧ n ≤ (bs.map Prod.snd).sum := by
  simp only [replyNew, bind_ok, require_ok, decide_eq_true_eq, Except.ok.injEq, add128_ok] at h
  obtain ⟨sup, hs, _, _, _, hc, _, h0, rfl⟩ := h
  have he := sumAmounts_eq hs
  rw [Nat.zero_add] at he
  subst he
  refine ⟨Nat.pos_of_ne_zero h0, ?_, ?_, ?_⟩
  · rw [List.map_append, List.sum_append]
    congr 1
    cases d with
    | none => rfl
    | some n => by_cases hn : n = 0 <;> simp [daoMint, hn]
  · intro e he
    rcases List.mem_append.1 he with he | he
    · exact Or.inl he
    · right
      cases d with
      | none => simp [daoMint] at he
      | some n =>
        by_cases hn : n = 0
        · simp [daoMint, hn] at he
        · simp [daoMint, hn] at he; rw [he]
  · intro n hn
    simp only [checkCount, hn, assertValidCount, bind_ok, require_ok, decide_eq_true_eq] at hc
    exact ⟨Nat.pos_of_ne_zero hc.choose_spec.1, hc.choose_spec.2⟩

/-- **C32.** A token made by a factory has circulating supply outside the DAO, enough for a count. -/
theorem C32_factory_token {s : State} {supply dao : Nat} (h : replyFactory s supply dao = .ok ()) :
    dao < supply ∧ ∀ n, s.threshold = some (.absolute n) → 0 < n ∧ n + dao ≤ supply := by
  simp only [replyFactory, bind_ok, require_ok, decide_eq_true_eq, sub128_ok] at h
  obtain ⟨_, ⟨hle, rfl⟩, _, hc, h0⟩ := h
  refine ⟨by omega, ?_⟩
  intro n hn
  simp only [checkCount, hn, assertValidCount, bind_ok, require_ok, decide_eq_true_eq] at hc
  exact ⟨Nat.pos_of_ne_zero hc.choose_spec.1, by have := hc.choose_spec.2; omega⟩

/-! ## A concrete history

Contract 9 of DAO 1, unstaking after 10 blocks, active at 40 percent. Addresses 2 and 3 stake; address 2
unstakes and claims. -/

def exW : World :=
  ⟨match instantiate 1 (some (.height 10)) (some (.percentage 400000000000000000)) with
    | .ok c => c
    | .error _ => ⟨0, none, Snap.empty, Snap.empty, [], none, none⟩, 9,
   [(2, 100), (3, 100), (1, 50)]⟩

def exCalls : List (Block × Call) :=
  [(⟨2, 2⟩, .stake 2 70), (⟨3, 3⟩, .stake 3 50), (⟨5, 5⟩, .transfer 3 9 5),
   (⟨9, 9⟩, .exec 2 (.unstake 40)), (⟨19, 19⟩, .exec 2 .claim)]

example : sys.init ⟨1, 1⟩ exW :=
  ⟨1, some (.height 10), some (.percentage 400000000000000000), by decide +kernel,
    .new [(2, 100), (3, 100)] [(2, 100), (3, 100), (1, 50)] (some 50) (by decide +kernel) (by decide +kernel), by decide +kernel⟩

example : (match sys.play exW ⟨1, 1⟩ exCalls with
    | some (w, _, log) => decide (coins w 2 = 70 ∧ coins w 9 = 85 ∧ w.c.total = 80 ∧
        powerAt w.c 2 9 = 70 ∧ totalPowerAt w.c 9 = 120 ∧ totalPowerAt w.c 10 = 80 ∧
        putIn 2 log = 70 ∧ takenOut 2 log = 40 ∧ donated 9 log = 5 ∧
        active w.c (Verif.total w.ledger) = .ok false)
    | none => false) = true := by decide +kernel

example : (match sys.play exW ⟨1, 1⟩ (exCalls.take 4) with
    | some (w, _, _) => decide (w.c.claims.of 2 = [⟨40, .atHeight 19⟩])
    | none => false) = true := by decide +kernel

example : (match sys.play exW ⟨1, 1⟩ (exCalls.take 3) with
    | some (w, _, _) => decide (active w.c (Verif.total w.ledger) = .ok true)
    | none => false) = true := by decide +kernel

end Verif.TokenStaked
