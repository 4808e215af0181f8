import Verif.Proofs.Cw20Stake
import Verif.Base.SnapHistory
/-!
# C26-C30: cw20-stake
-/

namespace Verif.Cw20Stake
open Verif Verif.Spec.Stake

/-! ## C26, C27 -/

/-- **C26.** In every reachable state the total staked is the sum of the staked balances. -/
theorem C26_total {w : World} {b : Block} {log : List (Ev World Block Call Out)}
    (h : sys.Reach w b log) : w.c.total = total w.c.staked.cur := (inv_reach h).sum

/-- **C27.** In every reachable state the contract holds the value of the pool and all claims. -/
theorem C27_covered {w : World} {b : Block} {log : List (Ev World Block Call Out)}
    (h : sys.Reach w b log) : totalValue w.c + w.c.claims.owed ≤ tokens w w.self := (inv_reach h).covered

/-- **C27.** A transfer the contract issues never fails for lack of tokens: whenever the contract accepts
a message, the whole transaction succeeds. -/
theorem C27_transfers_succeed {w : World} {b b' : Block} {log : List (Ev World Block Call Out)}
    (h : sys.Reach w b log) {a : Addr} {m : Msg} {c : State} {out : Out} (ha : a ≠ w.c.config.token)
    (hself : a ≠ w.self) (he : exec w.c b' a m = .ok (c, out)) :
    ∃ w', step w b' (.exec a m) = .ok (w', out) := by
  have hi := inv_reach h
  have hcov := hi.covered
  simp only [tokens] at hcov
  have hb : step w b' (.exec a m) = settle w c out := by
    simp only [step, require, ha, hself, ne_eq, not_false_eq_true, and_self, decide_true, if_true,
      ok_bind, he]
  have key : ∀ x n, out.pay = some (x, n) → n ≤ getD0 w.ledger w.self := by
    intro x n hp
    cases m with
    | receive x n r =>
      simp only [exec, execReceive, bind_ok, require_ok, decide_eq_true_eq] at he
      exact absurd he.choose_spec.1 ha
    | unstake k =>
      simp only [exec] at he
      obtain ⟨n', _, _, _, _, _, hle, _, h' | ⟨_, _, _, _, h'⟩⟩ := unstake_inv he
      · rw [h'.2.2] at hp; cases hp; omega
      · rw [h'] at hp; cases hp
    | claim =>
      simp only [exec] at he
      obtain ⟨c', n', hc, _, _, rfl⟩ := claim_inv he
      cases hp
      have := Claims.owed_claim hc
      omega
    | updateConfig d =>
      simp only [exec, execUpdateConfig, bind_ok, Except.ok.injEq, Prod.mk.injEq] at he
      obtain ⟨_, _, _, _, _, rfl⟩ := he; cases hp
    | addHook d =>
      simp only [exec, bind_ok, Except.ok.injEq, Prod.mk.injEq] at he
      obtain ⟨_, _, _, _, _, rfl⟩ := he; cases hp
    | removeHook d =>
      simp only [exec, bind_ok, Except.ok.injEq, Prod.mk.injEq] at he
      obtain ⟨_, _, _, _, _, rfl⟩ := he; cases hp
    | updateOwnership d =>
      simp only [exec, bind_ok, Except.ok.injEq, Prod.mk.injEq] at he
      obtain ⟨_, _, _, rfl⟩ := he; cases hp
  rw [hb]
  unfold settle
  cases hp : out.pay with
  | none => exact ⟨_, rfl⟩
  | some r =>
    obtain ⟨x, n⟩ := r
    obtain ⟨l, hl⟩ := Ledger.move_total_ok (b := x) (key x n hp) hi.supply
    simp only [hl, ok_bind]
    exact ⟨_, rfl⟩

/-! ## C28 -/

/-- The pool value per share never falls through a transaction that leaves somebody staked. -/
theorem effect_pool {w w' : World} {b : Block} {call : Call} {out : Out} (he : Effect w b call w' out)
    (hle : w.c.total ≤ w.c.balance) (h0 : w.c.total ≠ 0) :
    w.c.balance * w'.c.total ≤ w'.c.balance * w.c.total := by
  cases he with
  | stake a n k l ha hl hk hst =>
    have ht : State.total { w.c with staked := w.c.staked.save a (w.c.stakedOf a + k) b.height
                                     stakedTotal := w.c.stakedTotal.save () (w.c.total + k) b.height
                                     balance := w.c.balance + n } = w.c.total + k := total_save _ _ _
    simp only [ht]
    have hk' : w.c.balance * k ≤ n * w.c.total := by
      rcases stake_shares hk with ⟨h | h, rfl⟩ | ⟨_, hb, rfl⟩
      · exact absurd h h0
      · rw [h]; simp
      · have := Nat.div_mul_le_self (w.c.total * n) w.c.balance
        rw [Nat.mul_comm]; rw [Nat.mul_comm n]; exact this
    rw [Nat.mul_add, Nat.add_mul]
    omega
  | fund a n l ha hl => exact Nat.mul_le_mul_right _ (Nat.le_add_right _ _)
  | payout a m n l _ ha hn ht hm hsa hb hd hl ho hh =>
    have ht' : (unstaked w.c b a m n).total = w.c.total - m := total_save _ _ _
    have hbal : (unstaked w.c b a m n).balance = w.c.balance - n := rfl
    simp only [ht', hbal]
    have h1 : n * w.c.total ≤ m * w.c.balance := by rw [hn]; exact Nat.div_mul_le_self _ _
    rw [Nat.mul_sub, Nat.sub_mul, Nat.mul_comm w.c.balance m]
    omega
  | unbond a m n d _ ha hn ht hm hsa hb hd hlen ho hh =>
    have ht' : (unstaked w.c b a m n).total = w.c.total - m := total_save _ _ _
    have ht2 : State.total { unstaked w.c b a m n with claims := w.c.claims.create a n (d.after b) } =
      w.c.total - m := ht'
    have hbal : State.balance { unstaked w.c b a m n with claims := w.c.claims.create a n (d.after b) } =
      w.c.balance - n := rfl
    show w.c.balance * State.total _ ≤ State.balance _ * w.c.total
    rw [ht2, hbal]
    have h1 : n * w.c.total ≤ m * w.c.balance := by rw [hn]; exact Nat.div_mul_le_self _ _
    rw [Nat.mul_sub, Nat.sub_mul, Nat.mul_comm w.c.balance m]
    omega
  | claim a n c l ha hc hn hl => exact Nat.le_refl _
  | admin a m c hsm hm => simp only [State.total, hsm.balance, hsm.total]; exact Nat.le_refl _
  | transfer a d n l ha hl => exact Nat.le_refl _
  | mint d n l hsup hl => exact Nat.le_refl _
  | burn x n l hx hl => exact Nat.le_refl _

/-- **C28.** The value of a share never falls: through any transaction from a reachable state in which
somebody is staked before and after. -/
theorem C28_price_step {w w' : World} {b b' : Block} {log : List (Ev World Block Call Out)}
    (h : sys.Reach w b log) {call : Call} {out : Out} (hs : step w b' call = .ok (w', out))
    (h0 : w.c.total ≠ 0) (h0' : w'.c.total ≠ 0) : price w ≤ price w' := by
  have := effect_pool (step_effect hs) (inv_reach h).pool h0
  unfold price totalValue
  have p0 : (0 : ℚ) < w.c.total := by exact_mod_cast Nat.pos_of_ne_zero h0
  have p1 : (0 : ℚ) < w'.c.total := by exact_mod_cast Nat.pos_of_ne_zero h0'
  rw [div_le_div_iff₀ p0 p1]
  exact_mod_cast this

/-- **C28.** The same over every history during which somebody is always staked. -/
theorem C28_price_history {w w' : World} {b b' : Block} {log log' : List (Ev World Block Call Out)}
    (h : sys.Reach w b log) (hr : sys.Run w b log' w' b') (h0 : w.c.total ≠ 0)
    (hall : ∀ e ∈ log', e.post.c.total ≠ 0) : price w ≤ price w' := by
  induction hr with
  | refl => exact le_refl _
  | step hr hb hs ih =>
    rename_i s1 s2 b1 l env call out
    have h1 := ih (fun e he => hall e (List.mem_cons_of_mem _ he))
    have hn : s1.c.total ≠ 0 := by
      cases hr with
      | refl => exact h0
      | step hr' hb' hs' => exact hall _ (List.mem_cons_of_mem _ (List.mem_cons_self ..))
    exact le_trans h1 (C28_price_step (h.run hr) hs hn (hall _ (List.mem_cons_self ..)))

/-- A share is worth at least one token, and nothing when there is none. -/
theorem price_nonneg (w : World) : 0 ≤ price w := by unfold price; positivity

/-- What a transaction does to somebody who did not sign it. -/
theorem effect_other {w w' : World} {b : Block} {call : Call} {out : Out} (he : Effect w b call w' out)
    {u : Addr} (hu : u ≠ w.self) (hsig : signer call ≠ some u) :
    tokens w u ≤ tokens w' u ∧ w'.c.claims.of u = w.c.claims.of u ∧ w'.c.stakedOf u = w.c.stakedOf u := by
  have stk : ∀ (a : Addr) (x : Nat), a ≠ u →
      ((w.c.staked.save a x b.height).get u).getD 0 = w.c.stakedOf u := by
    intro a x hau; rw [Snap.get_save, if_neg hau]; rfl
  cases he with
  | stake a n k l ha hl hk hst =>
    have hau : a ≠ u := fun h => hsig (by rw [h]; rfl)
    obtain ⟨_, h2⟩ := Ledger.move_get hl ha u
    refine ⟨?_, rfl, stk a _ hau⟩
    simp only [tokens, h2, Ne.symm hau, hu, if_false]; exact Nat.le_refl _
  | fund a n l ha hl =>
    have hau : a ≠ u := fun h => hsig (by rw [h]; rfl)
    obtain ⟨_, h2⟩ := Ledger.move_get hl ha u
    refine ⟨?_, rfl, rfl⟩
    simp only [tokens, h2, Ne.symm hau, hu, if_false]; exact Nat.le_refl _
  | payout a m n l _ ha hn ht hm hsa hb hd hl ho hh =>
    have hau : a ≠ u := fun h => hsig (by rw [h]; rfl)
    obtain ⟨_, h2⟩ := Ledger.move_get hl (Ne.symm ha) u
    refine ⟨?_, rfl, stk a _ hau⟩
    simp only [tokens, h2, Ne.symm hau, hu, if_false]; exact Nat.le_refl _
  | unbond a m n d _ ha hn ht hm hsa hb hd hlen ho hh =>
    have hau : a ≠ u := fun h => hsig (by rw [h]; rfl)
    refine ⟨Nat.le_refl _, ?_, stk a _ hau⟩
    show (w.c.claims.create a n (d.after b)).of u = _
    unfold Claims.create; rw [Claims.of_set, if_neg hau]
  | claim a n c l ha hc hn hl =>
    have hau : a ≠ u := fun h => hsig (by rw [h]; rfl)
    obtain ⟨_, h2⟩ := Ledger.move_get hl (Ne.symm ha) u
    obtain ⟨_, rfl⟩ := Claims.claim_spec hc
    refine ⟨?_, ?_, rfl⟩
    · simp only [tokens, h2, Ne.symm hau, hu, if_false]; exact Nat.le_refl _
    · simp only; rw [Claims.of_set, if_neg hau]
  | admin a m c hsm hm =>
    exact ⟨Nat.le_refl _, by simp only [hsm.claims], by simp only [State.stakedOf, hsm.staked]⟩
  | transfer a d n l ha hl =>
    have hau : a ≠ u := fun h => hsig (by rw [h]; rfl)
    refine ⟨?_, rfl, rfl⟩
    by_cases had : a = d
    · subst had
      simp only [Ledger.move, bind_ok] at hl
      obtain ⟨l1, h1, h2⟩ := hl
      simp only [tokens, Ledger.credit_get h2, Ledger.debit_get h1, hau, if_false]; exact Nat.le_refl _
    · obtain ⟨_, h2⟩ := Ledger.move_get hl had u
      simp only [tokens, h2, Ne.symm hau, if_false]
      split
      · rename_i hd; subst hd; omega
      · exact Nat.le_refl _
  | mint d n l hsup hl =>
    refine ⟨?_, rfl, rfl⟩
    simp only [tokens, Ledger.credit_get hl]
    split
    · rename_i hd; subst hd; omega
    · exact Nat.le_refl _
  | burn x n l hx hl =>
    have hau : x ≠ u := fun h => hsig (by rw [h]; rfl)
    refine ⟨?_, rfl, rfl⟩
    simp only [tokens, Ledger.debit_get hl, hau, if_false]; exact Nat.le_refl _

/-- What a transaction does to its signer: tokens, claims and the pool together do not grow, and the
shares of everybody else stay. -/
theorem effect_self {w w' : World} {b : Block} {call : Call} {out : Out} (he : Effect w b call w' out)
    {h : Nat} (hi : Inv w h) {u : Addr} (hu : u ≠ w.self) (hsig : signer call = some u) :
    tokens w' u + claimSum (w'.c.claims.of u) + w'.c.balance ≤
        tokens w u + claimSum (w.c.claims.of u) + w.c.balance ∧
      w'.c.total + w.c.stakedOf u = w.c.total + w'.c.stakedOf u := by
  have stk : ∀ (x : Nat), ((w.c.staked.save u x b.height).get u).getD 0 = x := by
    intro x; rw [Snap.get_save, if_pos rfl]; rfl
  have hsu := stakedOf_le hi u
  cases he with
  | stake a n k l ha hl hk hst =>
    cases hsig
    obtain ⟨h1, h2⟩ := Ledger.move_get hl ha u
    have e1 : State.total { w.c with staked := w.c.staked.save u (w.c.stakedOf u + k) b.height
                                     stakedTotal := w.c.stakedTotal.save () (w.c.total + k) b.height
                                     balance := w.c.balance + n } = w.c.total + k := total_save _ _ _
    have e2 : State.stakedOf { w.c with staked := w.c.staked.save u (w.c.stakedOf u + k) b.height
                                        stakedTotal := w.c.stakedTotal.save () (w.c.total + k) b.height
                                        balance := w.c.balance + n } u = w.c.stakedOf u + k := stk _
    refine ⟨?_, ?_⟩
    · simp only [tokens, h2, if_true]; omega
    · simp only [e1, e2]; omega
  | fund a n l ha hl =>
    cases hsig
    obtain ⟨h1, h2⟩ := Ledger.move_get hl ha u
    refine ⟨?_, rfl⟩
    simp only [tokens, h2, if_true]; omega
  | payout a m n l _ ha hn ht hm hsa hb hd hl ho hh =>
    cases hsig
    obtain ⟨h1, h2⟩ := Ledger.move_get hl (Ne.symm ha) u
    have e1 : (unstaked w.c b u m n).total = w.c.total - m := total_save _ _ _
    have e2 : (unstaked w.c b u m n).stakedOf u = w.c.stakedOf u - m := stk _
    refine ⟨?_, ?_⟩
    · simp only [tokens, h2, hu, if_true, if_false, unstaked]; omega
    · simp only [e1, e2]; omega
  | unbond a m n d _ ha hn ht hm hsa hb hd hlen ho hh =>
    cases hsig
    have e1 : State.total { unstaked w.c b u m n with claims := w.c.claims.create u n (d.after b) } =
      w.c.total - m := total_save _ _ _
    have e2 : State.stakedOf { unstaked w.c b u m n with claims := w.c.claims.create u n (d.after b) } u =
      w.c.stakedOf u - m := stk _
    refine ⟨?_, ?_⟩
    · have : claimSum ((w.c.claims.create u n (d.after b)).of u) = claimSum (w.c.claims.of u) + n := by
        unfold Claims.create
        rw [Claims.of_set, if_pos rfl, Claims.claimSum_append]; simp [claimSum]
      simp only [tokens, this, unstaked]; omega
    · simp only [e1, e2]; omega
  | claim a n c l ha hc hn hl =>
    cases hsig
    obtain ⟨h1, h2⟩ := Ledger.move_get hl (Ne.symm ha) u
    obtain ⟨h3, rfl⟩ := Claims.claim_spec hc
    refine ⟨?_, rfl⟩
    have := Claims.claimSum_partition (fun cl => cl.releaseAt.isExpired b) (w.c.claims.of u)
    simp only [tokens, h2, hu, if_true, if_false]; rw [Claims.of_set, if_pos rfl]; omega
  | admin a m c hsm hm =>
    exact ⟨by simp only [hsm.claims, hsm.balance, tokens]; omega,
      by simp only [State.total, State.stakedOf, hsm.total, hsm.staked]⟩
  | transfer a d n l ha hl =>
    cases hsig
    refine ⟨?_, rfl⟩
    by_cases had : u = d
    · subst had
      simp only [Ledger.move, bind_ok] at hl
      obtain ⟨l1, h1, h2⟩ := hl
      have := (Ledger.debit_ok.1 h1).1
      simp only [tokens, Ledger.credit_get h2, Ledger.debit_get h1, if_true]; omega
    · obtain ⟨h1, h2⟩ := Ledger.move_get hl had u
      simp only [tokens, h2, if_true]; omega
  | mint d n l hsup hl => cases hsig
  | burn x n l hx hl =>
    cases hsig
    have := (Ledger.debit_ok.1 hl).1
    refine ⟨?_, rfl⟩
    simp only [tokens, Ledger.debit_get hl, if_true]; omega

/-- **C28.** Nobody loses by what others do: a transaction somebody did not sign never lowers what they
own in tokens, claims and pool share together. -/
theorem C28_no_loss {w w' : World} {b b' : Block} {log : List (Ev World Block Call Out)}
    (h : sys.Reach w b log) (hb : b.le b') {call : Call} {out : Out}
    (hs : step w b' call = .ok (w', out)) {u : Addr} (hu : u ≠ w.self) (hsig : signer call ≠ some u) :
    wealth w u ≤ wealth w' u := by
  obtain ⟨h1, h2, h3⟩ := effect_other (step_effect hs) hu hsig
  have h1' : (tokens w u : ℚ) ≤ tokens w' u := by exact_mod_cast h1
  unfold wealth
  rw [h2, h3]
  by_cases h0 : w.c.stakedOf u = 0
  · rw [h0]; simp; linarith
  · have hi := inv_reach h
    have hi' := (inv_step hi hb.1 hs).1
    have a1 := stakedOf_le hi u
    have a2 := stakedOf_le hi' u
    have hp := C28_price_step h hs (by omega) (by omega)
    have : (w.c.stakedOf u : ℚ) * price w ≤ w.c.stakedOf u * price w' :=
      mul_le_mul_of_nonneg_left hp (by positivity)
    linarith

theorem own_share {t o T B : Nat} (hT : T ≠ 0) (h : t + o = T) :
    (t : ℚ) * ((B : ℚ) / T) = B - o * (B / T) := by
  have hT' : (T : ℚ) ≠ 0 := by exact_mod_cast hT
  have : (t : ℚ) = T - o := by rw [← h]; push_cast; ring
  rw [this]; field_simp

/-- **C28.** Nobody gains by their own transactions: staking, unstaking, claiming, funding in any order
never raises what the signer owns in tokens, claims and pool share together, as long as somebody else is
staked. -/
theorem C28_no_gain {w w' : World} {b b' : Block} {log : List (Ev World Block Call Out)}
    (h : sys.Reach w b log) {call : Call} {out : Out}
    (hs : step w b' call = .ok (w', out)) {u : Addr} (hu : u ≠ w.self) (hsig : signer call = some u)
    (hother : w.c.stakedOf u < w.c.total) : wealth w' u ≤ wealth w u := by
  have hi := inv_reach h
  obtain ⟨h1, h2⟩ := effect_self (step_effect hs) hi hu hsig
  have hT : w.c.total ≠ 0 := by omega
  have hT' : w'.c.total ≠ 0 := by omega
  have hp := C28_price_step h hs hT hT'
  obtain ⟨o, ho⟩ : ∃ o, o = w.c.total - w.c.stakedOf u := ⟨_, rfl⟩
  have e1 := own_share (t := w.c.stakedOf u) (o := o) (B := w.c.balance) hT (by omega)
  have e2 := own_share (t := w'.c.stakedOf u) (o := o) (B := w'.c.balance) hT' (by omega)
  unfold wealth
  have hp' : (o : ℚ) * price w ≤ o * price w' := mul_le_mul_of_nonneg_left hp (by positivity)
  unfold price totalValue at hp' ⊢
  rw [e1, e2]
  have h1' : (tokens w' u : ℚ) + claimSum (w'.c.claims.of u) + w'.c.balance ≤
      tokens w u + claimSum (w.c.claims.of u) + w.c.balance := by exact_mod_cast h1
  linarith

/-- **C28.** The same over a whole sequence of transactions of one user, with other transactions of others
left out: the user ends with at most what they had. -/
theorem C28_no_gain_history {w w' : World} {b b' : Block} {log log' : List (Ev World Block Call Out)}
    (h : sys.Reach w b log) {u : Addr} (hu : u ≠ w.self) (hr : sys.Run w b log' w' b')
    (hsig : ∀ e ∈ log', signer e.call = some u) (hother : w.c.stakedOf u < w.c.total) :
    wealth w' u ≤ wealth w u ∧ w'.c.stakedOf u < w'.c.total ∧ w'.self = w.self := by
  induction hr with
  | refl => exact ⟨le_refl _, hother, rfl⟩
  | step hr hb hs ih =>
    obtain ⟨h1, h2, h3⟩ := ih (fun e he => hsig e (List.mem_cons_of_mem _ he))
    have hreach := h.run hr
    have hs' := hsig _ (List.mem_cons_self ..)
    have hu' := h3 ▸ hu
    have h4 := C28_no_gain hreach hs hu' hs' h2
    have h5 := (effect_self (step_effect hs) (inv_reach hreach) hu' hs').2
    exact ⟨le_trans h4 h1, by omega, (inv_step (inv_reach hreach) hb.1 hs).2.trans h3⟩

/-- **C28.** Staking and at once unstaking the new shares returns at most what was put in. -/
theorem C28_round_trip {T B n k m : Nat} (hB : T ≠ 0 ∨ B = 0) (hle : T ≤ B)
    (h1 : amountToStake T B n = .ok k) (h2 : amountToClaim (T + k) (B + n) k = .ok m) : m ≤ n := by
  obtain ⟨h0, rfl, _⟩ := claim_amount h2
  rcases stake_shares h1 with ⟨hz, rfl⟩ | ⟨hT, hB', rfl⟩
  · have hz' : T = 0 ∧ B = 0 := by omega
    rw [hz'.1, hz'.2]; simp
    by_cases hk : k = 0
    · subst hk; simp
    · rw [Nat.mul_div_cancel _ (Nat.pos_of_ne_zero hk)]
  · apply Nat.div_le_of_le_mul
    have := Nat.div_mul_le_self (T * n) B
    nlinarith

/-- **C28, counterexample.** Without a staker the first to stake takes whatever was funded: with an empty
pool of 100 funded tokens, staking 1 and unstaking it returns 101. -/
theorem C28_first_staker_gains :
    amountToStake 0 100 1 = .ok 1 ∧ amountToClaim (0 + 1) (100 + 1) 1 = .ok 101 := by decide +kernel

/-! ## C29 -/

/-- **C29.** The claims of an address are claims created by its own unstakings, each at most once. -/
theorem C29_origin {w : World} {b : Block} {log : List (Ev World Block Call Out)} (h : sys.Reach w b log)
    (a : Addr) : (w.c.claims.of a).Sublist (createdFor a log) ∧
      claimSum (w.c.claims.of a) + paidClaims a log = claimSum (createdFor a log) := by
  refine Sys.Reach.induct (P := fun w _ log => (w.c.claims.of a).Sublist (createdFor a log) ∧
      claimSum (w.c.claims.of a) + paidClaims a log = claimSum (createdFor a log)) ?_ ?_ h
  · intro b s hi
    obtain ⟨owner, token, d, hi, _⟩ := hi
    simp only [instantiate, bind_ok, Except.ok.injEq] at hi
    obtain ⟨_, _, hi⟩ := hi
    simp [← hi, createdFor, paidClaims, Claims.of, AMap.get, claimSum]
  · intro w b log env call out w' hr ⟨ih1, ih2⟩ hb hs
    have he := step_effect hs
    have hi := inv_reach hr
    cases he with
    | stake x n k l ha hl hk hst => simp only [createdFor, paidClaims, List.append_nil]; exact ⟨ih1, ih2⟩
    | fund x n l ha hl => simp only [createdFor, paidClaims, List.append_nil]; exact ⟨ih1, ih2⟩
    | payout x m n l _ ha hn ht hm hsa hbal hd hl ho hh =>
      simp only [createdFor, paidClaims, List.append_nil, hd]; exact ⟨ih1, ih2⟩
    | unbond x m n d _ ha hn ht hm hsa hbal hd hlen ho hh =>
      have hval : totalValue w.c - totalValue { unstaked w.c env x m n with
          claims := w.c.claims.create x n (d.after env) } = n := by
        simp only [totalValue, unstaked]; omega
      simp only [createdFor, paidClaims, hd, hval]
      show (Claims.of (w.c.claims.create x n (d.after env)) a).Sublist _ ∧ _
      unfold Claims.create
      rw [Claims.of_set]
      by_cases hxa : x = a
      · subst hxa
        simp only [if_true]
        refine ⟨ih1.append (List.Sublist.refl _), ?_⟩
        rw [Claims.claimSum_append, Claims.claimSum_append]; omega
      · simp only [hxa, if_false, List.append_nil]; exact ⟨ih1, ih2⟩
    | claim x n c l ha hc hn hl =>
      obtain ⟨hsum, rfl⟩ := Claims.claim_spec hc
      simp only [createdFor, paidClaims, List.append_nil]
      rw [Claims.of_set]
      by_cases hxa : x = a
      · subst hxa
        simp only [if_true]
        refine ⟨(List.filter_sublist).trans ih1, ?_⟩
        obtain ⟨h1, h2⟩ := Ledger.move_get hl (Ne.symm ha) x
        have hp : ∀ c', tokens { w with ledger := l, c := c' } x = tokens w x + n := by
          intro c'; simp only [tokens, h2, ha, if_true, if_false]
        have := Claims.claimSum_partition (fun cl => cl.releaseAt.isExpired env) (w.c.claims.of x)
        rw [hp]
        omega
      · simp only [hxa, if_false, Nat.add_zero]; exact ⟨ih1, ih2⟩
    | admin x m c hsm hm =>
      simp only [hsm.claims]
      cases m with
      | unstake k => exact absurd rfl (hm.1 k)
      | claim => exact absurd rfl hm.2
      | receive _ _ _ => simp only [createdFor, paidClaims, List.append_nil]; exact ⟨ih1, ih2⟩
      | updateConfig _ => simp only [createdFor, paidClaims, List.append_nil]; exact ⟨ih1, ih2⟩
      | addHook _ => simp only [createdFor, paidClaims, List.append_nil]; exact ⟨ih1, ih2⟩
      | removeHook _ => simp only [createdFor, paidClaims, List.append_nil]; exact ⟨ih1, ih2⟩
      | updateOwnership _ => simp only [createdFor, paidClaims, List.append_nil]; exact ⟨ih1, ih2⟩
    | transfer x d n l ha hl => simp only [createdFor, paidClaims, List.append_nil]; exact ⟨ih1, ih2⟩
    | mint d n l hsup hl => simp only [createdFor, paidClaims, List.append_nil]; exact ⟨ih1, ih2⟩
    | burn x n l hx hl => simp only [createdFor, paidClaims, List.append_nil]; exact ⟨ih1, ih2⟩

/-- **C29.** A claim call pays the caller exactly the sum of their matured claims, and keeps exactly the
others. -/
theorem C29_claim {w w' : World} {b : Block} {a : Addr} {out : Out}
    (hs : step w b (.exec a .claim) = .ok (w', out)) :
    w'.c.claims.of a = (w.c.claims.of a).filter (fun cl => !cl.releaseAt.isExpired b) ∧
    tokens w' a = tokens w a + claimSum ((w.c.claims.of a).filter (fun cl => cl.releaseAt.isExpired b)) ∧
    (∀ x, x ≠ a → w'.c.claims.of x = w.c.claims.of x) := by
  have he := step_effect hs
  cases he with
  | claim _ n c l ha hc hn hl =>
    obtain ⟨rfl, rfl⟩ := Claims.claim_spec hc
    obtain ⟨h1, h2⟩ := Ledger.move_get hl (Ne.symm ha) a
    refine ⟨by simp only; rw [Claims.of_set, if_pos rfl], by simp only [tokens, h2, ha, if_true, if_false],
      fun x hx => by simp only; rw [Claims.of_set, if_neg (Ne.symm hx)]⟩
  | admin _ _ c hsm hm => exact absurd rfl hm.2

/-- **C29.** No other transaction removes or changes a claim of `a`. -/
theorem C29_untouched {w w' : World} {b : Block} {call : Call} {out : Out} {a : Addr}
    (hs : step w b call = .ok (w', out)) (hc : call ≠ .exec a .claim) :
    w.c.claims.of a <+: w'.c.claims.of a := by
  have he := step_effect hs
  cases he with
  | stake x n k l ha hl hk hst => exact List.prefix_refl _
  | fund x n l ha hl => exact List.prefix_refl _
  | payout x m n l _ ha hn ht hm hsa hbal hd hl ho hh => exact List.prefix_refl _
  | unbond x m n d _ ha hn ht hm hsa hbal hd hlen ho hh =>
    show _ <+: (w.c.claims.create x n (d.after b)).of a
    unfold Claims.create
    rw [Claims.of_set]
    split
    · rename_i hx; subst hx; exact List.prefix_append _ _
    · exact List.prefix_refl _
  | claim x n c l ha hcl hn hl =>
    obtain ⟨_, rfl⟩ := Claims.claim_spec hcl
    have hx : x ≠ a := fun h => hc (by rw [h])
    simp only; rw [Claims.of_set, if_neg hx]
  | admin x m c hsm hm => simp only [hsm.claims]; exact List.prefix_refl _
  | transfer x d n l ha hl => exact List.prefix_refl _
  | mint d n l hsup hl => exact List.prefix_refl _
  | burn x n l hx hl => exact List.prefix_refl _

/-- **C29.** A matured claim can always be claimed. -/
theorem C29_claimable {w : World} {b b' : Block} {log : List (Ev World Block Call Out)}
    (h : sys.Reach w b log) {a : Addr} (ha : a ≠ w.self) (ht : a ≠ w.c.config.token)
    (hm : claimSum ((w.c.claims.of a).filter (fun cl => cl.releaseAt.isExpired b')) ≠ 0) :
    ∃ w' out, step w b' (.exec a .claim) = .ok (w', out) := by
  have hi := inv_reach h
  have hcov := hi.covered
  have hsup := hi.supply
  simp only [tokens] at hcov
  have h1 := getD0_le_total w.ledger w.self
  have h2 := Claims.of_le_owed w.c.claims a
  have h3 := Claims.claimSum_partition (fun cl => cl.releaseAt.isExpired b') (w.c.claims.of a)
  have h4 := Claims.sumMatured_total (b := b') (l := w.c.claims.of a) (acc := 0) (by omega)
  have he : ∃ c out, exec w.c b' a .claim = .ok (c, out) := by
    have h5 : decide (0 + claimSum ((w.c.claims.of a).filter (fun cl => cl.releaseAt.isExpired b')) ≠ 0) =
        true := by rw [decide_eq_true_eq]; omega
    simp only [exec, execClaim, Claims.claimTokens, h4, ok_bind]
    rw [h5]
    simp only [require, if_true, ok_bind]
    exact ⟨_, _, rfl⟩
  obtain ⟨c, out, he⟩ := he
  obtain ⟨w', hw⟩ := C27_transfers_succeed h (b' := b') ht ha he
  exact ⟨w', _, hw⟩

/-- **C29.** A staker can always unstake any part of their shares, as long as the tokens of the pool and
the shares together stay below 2^128 - 1 and, under an unstaking duration, fewer than 100 claims are
outstanding. -/
theorem C29_unstakeable {w : World} {b b' : Block} {log : List (Ev World Block Call Out)}
    (h : sys.Reach w b log) {a : Addr} (ha : a ≠ w.self) (ht : a ≠ w.c.config.token) {m : Nat}
    (hm : m ≤ w.c.stakedOf a) (h0 : w.c.total ≠ 0) (hbig : m + w.c.balance < U128 - 1)
    (hcl : w.c.config.unstakingDuration = none ∨ (w.c.claims.of a).length < MAX_CLAIMS) :
    ∃ w' out, step w b' (.exec a (.unstake m)) = .ok (w', out) := by
  have hi := inv_reach h
  have hle := stakedOf_le hi a
  have hpool := hi.pool
  obtain ⟨_, hq⟩ := unstake_pool (m := m) h0 (by omega) hpool
  have hn : amountToClaim w.c.total w.c.balance m = .ok (m * w.c.balance / w.c.total) := by
    unfold amountToClaim
    rw [if_neg h0, if_pos (by omega)]
  have e1 : sub128 (w.c.stakedOf a) m = .ok (w.c.stakedOf a - m) := (sub128_ok _ _ _).2 ⟨hm, rfl⟩
  have e2 : sub128 w.c.total m = .ok (w.c.total - m) := (sub128_ok _ _ _).2 ⟨by omega, rfl⟩
  have e3 : sub128 w.c.balance (m * w.c.balance / w.c.total) = .ok (w.c.balance - m * w.c.balance / w.c.total) :=
    (sub128_ok _ _ _).2 ⟨hq, rfl⟩
  have hml : m ≤ w.c.total := by omega
  have he : ∃ c out, exec w.c b' a (.unstake m) = .ok (c, out) := by
    simp only [exec, execUnstake, require, h0, ne_eq, not_false_eq_true, decide_true, if_true, ok_bind,
      hbig, hml, hn, e1, e2, e3]
    unfold release
    simp only
    cases hd : w.c.config.unstakingDuration with
    | none => exact ⟨_, _, rfl⟩
    | some d =>
      simp only
      rcases hcl with hcl | hcl
      · rw [hd] at hcl; cases hcl
      · rw [if_neg (by omega)]; exact ⟨_, _, rfl⟩
  obtain ⟨c, out, he⟩ := he
  obtain ⟨w', hw⟩ := C27_transfers_succeed h (b' := b') ht ha he
  exact ⟨w', _, hw⟩

/-- **C29.** Unstaking takes exactly the shares asked for from the caller and credits, as tokens at once
or as one new claim released the unstaking duration later, what left the pool: the shares' part, rounded
down. -/
theorem C29_unstake {w w' : World} {b : Block} {a : Addr} {m : Nat} {out : Out}
    (hs : step w b (.exec a (.unstake m)) = .ok (w', out)) :
    m ≤ w.c.stakedOf a ∧ w'.c.stakedOf a = w.c.stakedOf a - m ∧ w'.c.total = w.c.total - m ∧
    totalValue w'.c = totalValue w.c - m * totalValue w.c / w.c.total ∧
    (match w.c.config.unstakingDuration with
     | none => tokens w' a = tokens w a + m * totalValue w.c / w.c.total ∧ w'.c.claims = w.c.claims
     | some d => tokens w' a = tokens w a ∧
        w'.c.claims.of a = w.c.claims.of a ++ [⟨m * totalValue w.c / w.c.total, d.after b⟩]) := by
  have he := step_effect hs
  have stk : ∀ (x : Nat), ((w.c.staked.save a x b.height).get a).getD 0 = x := by
    intro x; rw [Snap.get_save, if_pos rfl]; rfl
  cases he with
  | payout _ _ n l _ ha hn ht hm hsa hb hd hl ho hh =>
    obtain ⟨h1, h2⟩ := Ledger.move_get hl (Ne.symm ha) a
    refine ⟨hsa, stk _, total_save _ _ _, by simp only [totalValue, unstaked, hn], ?_⟩
    rw [hd]
    simp only [tokens, h2, ha, if_true, if_false, totalValue, hn]
    exact ⟨trivial, rfl⟩
  | unbond _ _ n d _ ha hn ht hm hsa hb hd hlen ho hh =>
    refine ⟨hsa, stk _, total_save _ _ _, by simp only [totalValue, unstaked, hn], ?_⟩
    rw [hd]
    refine ⟨rfl, ?_⟩
    show (w.c.claims.create a n (d.after b)).of a = _
    unfold Claims.create
    rw [Claims.of_set, if_pos rfl, hn]; rfl
  | admin _ _ c hsm hm => exact absurd rfl (hm.1 m)

/-- **C29.** The unstaking duration is changed only by the owner; the token never. -/
theorem C29_config {w w' : World} {b : Block} {call : Call} {out : Out}
    (hs : step w b call = .ok (w', out)) :
    w'.c.config.token = w.c.config.token ∧
    (w'.c.config ≠ w.c.config → ∃ a d, call = .exec a (.updateConfig d) ∧
      w.c.ownership.owner = some a ∧ w'.c.config.unstakingDuration = d) := by
  have he := step_effect hs
  cases he with
  | stake => exact ⟨rfl, fun h => absurd rfl h⟩
  | fund => exact ⟨rfl, fun h => absurd rfl h⟩
  | payout => exact ⟨rfl, fun h => absurd rfl h⟩
  | unbond => exact ⟨rfl, fun h => absurd rfl h⟩
  | claim => exact ⟨rfl, fun h => absurd rfl h⟩
  | transfer => exact ⟨rfl, fun h => absurd rfl h⟩
  | mint => exact ⟨rfl, fun h => absurd rfl h⟩
  | burn => exact ⟨rfl, fun h => absurd rfl h⟩
  | admin a m c hsm hm =>
    refine ⟨hsm.token, fun hne => ?_⟩
    simp only [step, bind_ok] at hs
    obtain ⟨_, _, ⟨c1, o1⟩, hx, hset⟩ := hs
    obtain ⟨rfl, hw⟩ := settle_inv hset
    have hc : c1 = c := by
      rcases hw with ⟨_, hw⟩ | ⟨_, _, _, _, _, hw⟩
      · exact (congrArg World.c hw).symm
      · exact (congrArg World.c hw).symm
    subst hc
    cases m with
    | receive x n r =>
      simp only [exec, execReceive, bind_ok, require_ok, decide_eq_true_eq] at hx
      obtain ⟨_, _, hx⟩ := hx
      cases r with
      | stake =>
        simp only [execStake, bind_ok, Except.ok.injEq, Prod.mk.injEq] at hx
        obtain ⟨_, _, _, _, _, _, _, _, rfl, _⟩ := hx; exact absurd rfl hne
      | fund =>
        simp only [execFund, bind_ok, Except.ok.injEq, Prod.mk.injEq] at hx
        obtain ⟨_, _, rfl, _⟩ := hx; exact absurd rfl hne
    | unstake k => exact absurd rfl (hm.1 k)
    | claim => exact absurd rfl hm.2
    | updateConfig d =>
      simp only [exec, execUpdateConfig, bind_ok, Except.ok.injEq, Prod.mk.injEq,
        Ownership.assertOwner_ok] at hx
      obtain ⟨_, ho, _, _, rfl, _⟩ := hx
      exact ⟨a, d, rfl, ho, rfl⟩
    | addHook d =>
      simp only [exec, bind_ok, Except.ok.injEq, Prod.mk.injEq] at hx
      obtain ⟨_, _, _, _, rfl, _⟩ := hx; exact absurd rfl hne
    | removeHook d =>
      simp only [exec, bind_ok, Except.ok.injEq, Prod.mk.injEq] at hx
      obtain ⟨_, _, _, _, rfl, _⟩ := hx; exact absurd rfl hne
    | updateOwnership d =>
      simp only [exec, bind_ok, Except.ok.injEq, Prod.mk.injEq] at hx
      obtain ⟨_, _, rfl, _⟩ := hx; exact absurd rfl hne

/-- Every registered hook hears of every stake and unstake: of the shares the staker gained or lost. -/
theorem hooks_announce {w w' : World} {b : Block} {call : Call} {out : Out}
    (hs : step w b call = .ok (w', out)) :
    (∀ a n, call = .send a n .stake →
      out.hooks = hookMsgs w.c.hooks true a (w'.c.stakedOf a - w.c.stakedOf a)) ∧
    (∀ a m, call = .exec a (.unstake m) →
      out.hooks = hookMsgs w.c.hooks false a (w.c.stakedOf a - w'.c.stakedOf a)) ∧
    ((∀ a n, call ≠ .send a n .stake) → (∀ a m, call ≠ .exec a (.unstake m)) →
      ∀ a, w'.c.stakedOf a = w.c.stakedOf a) := by
  have stk : ∀ (a : Addr) (x : Nat), ((w.c.staked.save a x b.height).get a).getD 0 = x := by
    intro a x; rw [Snap.get_save, if_pos rfl]; rfl
  cases step_effect hs with
  | stake a n k l ha hl hk hst =>
    refine ⟨?_, fun _ _ h => (by cases h), fun h _ => absurd rfl (h a n)⟩
    intro a' n' h; cases h
    show hookMsgs _ _ _ k = hookMsgs _ _ _ (((w.c.staked.save a _ b.height).get a).getD 0 - _)
    rw [stk]; congr 1; omega
  | payout a m n l _ ha hn ht hm hsa hb hd hl ho hh =>
    refine ⟨fun _ _ h => (by cases h), ?_, fun _ h => absurd rfl (h a m)⟩
    intro a' n' h; cases h
    show out.hooks = hookMsgs _ _ _ (_ - ((w.c.staked.save a _ b.height).get a).getD 0)
    rw [stk, hh]; congr 1; omega
  | unbond a m n d _ ha hn ht hm hsa hb hd hlen ho hh =>
    refine ⟨fun _ _ h => (by cases h), ?_, fun _ h => absurd rfl (h a m)⟩
    intro a' n' h; cases h
    show out.hooks = hookMsgs _ _ _ (_ - ((w.c.staked.save a _ b.height).get a).getD 0)
    rw [stk, hh]; congr 1; omega
  | admin a m c hsm hm =>
    exact ⟨fun _ _ h => (by cases h), fun _ k h => (by cases h; exact absurd rfl (hm.1 k)),
      fun _ _ x => by simp only [State.stakedOf, hsm.staked]⟩
  | fund => exact ⟨fun _ _ h => (by cases h), fun _ _ h => (by cases h), fun _ _ _ => rfl⟩
  | claim => exact ⟨fun _ _ h => (by cases h), fun _ _ h => (by cases h), fun _ _ _ => rfl⟩
  | transfer => exact ⟨fun _ _ h => (by cases h), fun _ _ h => (by cases h), fun _ _ _ => rfl⟩
  | mint => exact ⟨fun _ _ h => (by cases h), fun _ _ h => (by cases h), fun _ _ _ => rfl⟩
  | burn => exact ⟨fun _ _ h => (by cases h), fun _ _ h => (by cases h), fun _ _ _ => rfl⟩

/-! ## C30, and C26 at every height -/

theorem init_shape {b : Block} {w : World} (h : sys.init b w) :
    w.c.staked = Snap.empty ∧ w.c.stakedTotal = Snap.empty.save () 0 b.height := by
  obtain ⟨owner, token, d, hi, _⟩ := h
  simp only [instantiate, bind_ok, Except.ok.injEq] at hi
  obtain ⟨_, _, hi⟩ := hi
  rw [← hi]; exact ⟨rfl, rfl⟩

/-- The balances and the total are written only at the current height. -/
theorem snapshotted : sys.Snapshotted (fun w => w.c.staked) ∧ sys.Snapshotted (fun w => w.c.stakedTotal) := by
  refine ⟨⟨?_, ?_⟩, ⟨?_, ?_⟩⟩
  · intro b s h; rw [(init_shape h).1]; exact Snap.upTo_empty _
  · intro s env call s' out h
    cases step_effect h with
    | stake => exact Snap.Writes.one _ _ _ _
    | payout => exact Snap.Writes.one _ _ _ _
    | unbond => exact Snap.Writes.one _ _ _ _
    | admin a m c hsm hm => exact Snap.Writes.of_eq hsm.staked
    | fund => exact .refl
    | claim => exact .refl
    | transfer => exact .refl
    | mint => exact .refl
    | burn => exact .refl
  · intro b s h; rw [(init_shape h).2]; exact Snap.upTo_save (Snap.upTo_empty 0) (Nat.zero_le _)
  · intro s env call s' out h
    cases step_effect h with
    | stake => exact Snap.Writes.one _ _ _ _
    | payout => exact Snap.Writes.one _ _ _ _
    | unbond => exact Snap.Writes.one _ _ _ _
    | admin a m c hsm hm => exact Snap.Writes.of_eq hsm.total
    | fund => exact .refl
    | claim => exact .refl
    | transfer => exact .refl
    | mint => exact .refl
    | burn => exact .refl

/-- **C30.** The balances and the total reported for a height are those after the last call below that
height, whatever is called from then on. -/
theorem C30_stake_history {w w' : World} {b b' : Block} {log log' : List (Ev World Block Call Out)}
    (h : sys.Reach w b log) (hr : sys.Run w b log' w' b') {x : Nat} (hb : b.height < x)
    (hx : ∀ e ∈ log', x ≤ e.env.height) (a : Addr) :
    stakedAt w'.c a x = w.c.stakedOf a ∧ totalStakedAt w'.c x = w.c.total := by
  unfold stakedAt totalStakedAt
  rw [snapshotted.1.current h hr hb hx a, snapshotted.2.current h hr hb hx ()]
  exact ⟨rfl, rfl⟩

/-- **C30.** What is reported for a height does not change through calls at or above that height. -/
theorem C30_stake_stable {w w' : World} {b b' : Block} {log log' : List (Ev World Block Call Out)}
    (h : sys.Reach w b log) (hr : sys.Run w b log' w' b') {x : Nat}
    (hx : ∀ e ∈ log', x ≤ e.env.height) (a : Addr) :
    stakedAt w'.c a x = stakedAt w.c a x ∧ totalStakedAt w'.c x = totalStakedAt w.c x := by
  unfold stakedAt totalStakedAt
  rw [snapshotted.1.stable h hr hx a, snapshotted.2.stable h hr hx ()]
  exact ⟨rfl, rfl⟩

theorem init_at {b : Block} {w : World} (h : sys.init b w) (x : Nat) :
    (∀ a, stakedAt w.c a x = 0) ∧ totalStakedAt w.c x = 0 := by
  unfold stakedAt totalStakedAt
  rw [(init_shape h).1, (init_shape h).2]
  refine ⟨fun a => rfl, ?_⟩
  by_cases hx : x ≤ b.height
  · rw [Snap.atHeight_save (Snap.upTo_empty _) hx]; rfl
  · rw [Snap.atHeight_future (Snap.upTo_save (Snap.upTo_empty 0) (Nat.zero_le _)) (Nat.lt_of_not_le hx),
      Snap.get_save, if_pos rfl]; rfl

/-- **C26.** At every height the reported total is the sum of the reported balances: over any list of
addresses without repetition that has everybody with a balance. -/
theorem C26_total_at_height {w : World} {b : Block} {log : List (Ev World Block Call Out)}
    (h : sys.Reach w b log) (x : Nat) {L : List Addr} (hL : L.Nodup)
    (hc : ∀ a, a ∉ L → stakedAt w.c a x = 0) :
    totalStakedAt w.c x = (L.map (fun a => stakedAt w.c a x)).sum := by
  obtain ⟨w1, b1, l1, l2, rfl, h1, hr, hx, hb⟩ := h.split x
  rcases hb with hb | ⟨rfl, hi⟩
  · have e := C30_stake_history h1 hr hb hx
    have hi := inv_reach h1
    rw [(e 0).2, hi.sum, ← total_eq_sum hi.wf hL (fun a ha => by rw [← stakedOf_cur, ← (e a).1]; exact hc a ha)]
    congr 1
    apply List.map_congr_left
    intro a _; rw [(e a).1]; rfl
  · have e := fun a => C30_stake_stable h1 hr hx a
    have hz := init_at hi x
    rw [(e 0).2, hz.2]
    symm
    apply List.sum_eq_zero
    intro n hn
    obtain ⟨a, _, rfl⟩ := List.mem_map.1 hn
    rw [(e a).1, hz.1]

/-! ## A concrete history

Contract 9 over token 8, owner 1, unstaking after 10 blocks. Addresses 2 and 3 stake 100 and 50, address 4
funds 75, address 2 unstakes 100 shares for 150 tokens, claims them at height 20. -/

def exW : World :=
  ⟨match instantiate ⟨1, 1⟩ (some 1) 8 (some (.height 10)) with
    | .ok c => c
    | .error _ => ⟨⟨0, none⟩, Snap.empty, Snap.empty, [], 0, none, ⟨none, none, none⟩⟩, 9, [(2, 1000), (3, 1000), (4, 1000)]⟩

def exCalls : List (Block × Call) :=
  [(⟨2, 2⟩, .send 2 100 .stake), (⟨3, 3⟩, .send 3 50 .stake), (⟨5, 5⟩, .send 4 75 .fund),
   (⟨9, 9⟩, .exec 2 (.unstake 100)), (⟨20, 20⟩, .exec 2 .claim)]

example : sys.init ⟨1, 1⟩ exW := ⟨some 1, 8, some (.height 10), rfl, by decide +kernel, by decide +kernel⟩

/-- The history plays: at its end address 2 has 1050 tokens, address 3 holds all 50 shares worth 75, and
the balances at height 9 are still reported. -/
example : (match sys.play exW ⟨1, 1⟩ exCalls with
    | some (w, _, _) => decide (tokens w 2 = 1050 ∧ tokens w 9 = 75 ∧ w.c.total = 50 ∧ totalValue w.c = 75 ∧
        stakedAt w.c 2 9 = 100 ∧ totalStakedAt w.c 9 = 150 ∧ totalStakedAt w.c 10 = 50 ∧
        stakedAt w.c 2 2 = 0)
    | none => false) = true := by decide +kernel

/-- Before the claim, the claim of 150 tokens for height 19 is there. -/
example : (match sys.play exW ⟨1, 1⟩ (exCalls.take 4) with
    | some (w, _, log) => decide (w.c.claims.of 2 = [⟨150, .atHeight 19⟩] ∧ createdFor 2 log = w.c.claims.of 2 ∧
        w.c.stakedOf 2 < w.c.total)
    | none => false) = true := by decide +kernel

/-- **C28, counterexample as a history.** Address 4 funds the empty pool with 100; address 2 stakes 1, unstakes
it at once, and 10 blocks later owns 100 tokens more than before. -/
theorem C28_first_staker_history : (match sys.play exW ⟨1, 1⟩ [(⟨2, 2⟩, .send 4 100 .fund),
      (⟨3, 3⟩, .send 2 1 .stake), (⟨3, 3⟩, .exec 2 (.unstake 1)), (⟨13, 13⟩, .exec 2 .claim)] with
    | some (w, _, _) => decide (tokens exW 2 = 1000 ∧ tokens w 2 = 1100)
    | none => false) = true := by decide +kernel

/-- Too early, the claim fails. -/
example : (sys.play exW ⟨1, 1⟩ (exCalls.take 4 ++ [(⟨18, 18⟩, .exec 2 .claim)])).isNone = true := by
  decide +kernel

end Verif.Cw20Stake
