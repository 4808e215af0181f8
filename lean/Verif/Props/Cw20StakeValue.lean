import Verif.Props.Cw20Stake
import Verif.Proofs.DaoRewards
/-!
# cw20-stake: what is reported is what is paid, and everybody can stake (C98)
-/

namespace Verif.Cw20Stake
open Verif Verif.Spec.Stake

variable {w w' : World} {b b' : Block} {log : List (Ev World Block Call Out)} {a : Addr}

/-- What `StakedValue` answers, when it answers. -/
theorem value_eq {s : State} {v : Nat} (hq : stakedValue s a = .ok v) : v = s.stakedOf a * s.balance / s.total := by
  unfold stakedValue at hq
  split at hq
  · rename_i h
    simp only [Except.ok.injEq] at hq
    subst hq
    rcases h with h | h | h <;> simp [h]
  · simp only [bind_ok, mul128_ok, Except.ok.injEq] at hq
    obtain ⟨_, ⟨_, rfl⟩, rfl⟩ := hq
    rfl

/-- **C98.** What `StakedValue` reports is what the staker gets by unstaking everything now: paid at once, or as a claim
when there is an unstaking duration. The pool loses as much. -/
theorem C98_value {v : Nat} {out : Out} (hq : stakedValue w.c a = .ok v)
    (hs : sys.step w b (.exec a (.unstake (w.c.stakedOf a))) = .ok (w', out)) :
    totalValue w'.c = totalValue w.c - v ∧ w'.c.stakedOf a = 0 ∧
    (match w.c.config.unstakingDuration with
     | none => tokens w' a = tokens w a + v ∧ w'.c.claims = w.c.claims
     | some d => tokens w' a = tokens w a ∧ w'.c.claims.of a = w.c.claims.of a ++ [⟨v, d.after b⟩]) := by
  obtain ⟨_, h2, _, h4, h5⟩ := C29_unstake hs
  have hv : v = w.c.stakedOf a * totalValue w.c / w.c.total := value_eq hq
  rw [← hv] at h4 h5
  exact ⟨h4, by rw [h2, Nat.sub_self], h5⟩

theorem sum_div_le {l : List (Addr × Nat)} {s : State} (hq : ∀ x ∈ l, stakedValue s x.1 = .ok x.2) :
    (l.map Prod.snd).sum * s.total ≤ (l.map (fun x => s.stakedOf x.1)).sum * s.balance := by
  induction l with
  | nil => simp
  | cons x l ih =>
    have h1 := ih (fun y hy => hq y (List.mem_cons_of_mem _ hy))
    have h2 := value_eq (hq x (List.mem_cons_self ..))
    have h3 := Nat.div_mul_le_self (s.stakedOf x.1 * s.balance) s.total
    rw [← h2] at h3
    simp only [List.map_cons, List.sum_cons, Nat.add_mul]
    omega

/-- **C98.** The reported values of different stakers never add up to more than the reported total value, and the contract
holds that many tokens. -/
theorem C98_sum (h : sys.Reach w b log) (l : List (Addr × Nat)) (hn : (l.map Prod.fst).Nodup)
    (hq : ∀ x ∈ l, stakedValue w.c x.1 = .ok x.2) :
    (l.map Prod.snd).sum ≤ totalValue w.c ∧ totalValue w.c ≤ tokens w w.self := by
  have hi := inv_reach h
  refine ⟨?_, by have := hi.covered; unfold totalValue; omega⟩
  have h1 := sum_div_le hq
  have h2 : (l.map (fun x => w.c.stakedOf x.1)).sum ≤ w.c.total := by
    rw [hi.sum]
    have := DaoRewards.mapsum_total hi.wf hn
    rw [List.map_map] at this
    exact this
  by_cases h0 : w.c.total = 0
  · have hz : ∀ x ∈ l, x.2 = 0 := fun x hx => by rw [value_eq (hq x hx), h0, Nat.div_zero]
    have : (l.map Prod.snd).sum = 0 := List.sum_eq_zero (fun y hy => by
      obtain ⟨x, hx, rfl⟩ := List.mem_map.1 hy; exact hz x hx)
    omega
  · have h3 := Nat.mul_le_mul_right w.c.balance h2
    have h4 : (l.map Prod.snd).sum * w.c.total ≤ w.c.balance * w.c.total := by
      rw [Nat.mul_comm w.c.balance]; omega
    exact Nat.le_of_mul_le_mul_right h4 (Nat.pos_of_ne_zero h0)

/-- **C98.** `StakedValue` answers as long as the stake times the value of the pool fits 128 bits. -/
theorem C98_answers_partial (hfit : w.c.stakedOf a * totalValue w.c < U128) : ∃ v, stakedValue w.c a = .ok v := by
  unfold totalValue at hfit
  unfold stakedValue
  split
  · exact ⟨_, rfl⟩
  · exact ⟨_, by rw [(mul128_ok _ _ _).2 ⟨hfit, rfl⟩]; rfl⟩

/-- **C98.** Everybody can stake any part of their tokens at any time, and gets the part of the shares that the tokens are
of the pool, rounded down; as many shares as tokens, if there are no shares yet. -/
theorem C98_stakeable (h : sys.Reach w b log) (ha : a ≠ w.self) {n : Nat} (hn : n ≤ tokens w a) :
    ∃ w' out, sys.step w b' (.send a n .stake) = .ok (w', out) ∧
      w'.c.stakedOf a = w.c.stakedOf a + (if w.c.total = 0 then n else w.c.total * n / totalValue w.c) ∧
      totalValue w'.c = totalValue w.c + n ∧ tokens w' a + n = tokens w a := by
  have hi := inv_reach h
  have hsup := hi.supply
  have hcov := hi.covered
  have hpool := hi.pool
  have hle := stakedOf_le hi a
  obtain ⟨l, hl⟩ := Ledger.move_total_ok (b := w.self) hn hsup
  obtain ⟨g1, g2⟩ := Ledger.move_get hl ha a
  obtain ⟨_, g3⟩ := Ledger.move_get hl ha w.self
  rw [if_neg (Ne.symm ha), if_pos rfl] at g3
  have hT := Ledger.move_total hl
  have hself := getD0_le_total l w.self
  unfold tokens at hcov hn
  have hbal : w.c.balance + n < U128 := by omega
  obtain ⟨k, hk, hkn⟩ : ∃ k, amountToStake w.c.total w.c.balance n = .ok k ∧
      k = if w.c.total = 0 then n else w.c.total * n / totalValue w.c := by
    unfold amountToStake totalValue
    by_cases h0 : w.c.total = 0
    · exact ⟨n, by rw [if_pos (Or.inl h0)], by rw [if_pos h0]⟩
    · have hb0 : w.c.balance ≠ 0 := by omega
      have hle : w.c.total * n / w.c.balance ≤ n := Nat.div_le_of_le_mul (Nat.mul_le_mul_right _ hpool)
      exact ⟨w.c.total * n / w.c.balance, by rw [if_neg (by omega), if_pos (by omega)], by rw [if_neg h0]⟩
  have hkle := shares_le hk hpool
  have e1 : add128 (w.c.stakedOf a) k = .ok (w.c.stakedOf a + k) := (add128_ok _ _ _).2 ⟨by omega, rfl⟩
  have e2 : add128 w.c.total k = .ok (w.c.total + k) := (add128_ok _ _ _).2 ⟨by omega, rfl⟩
  have e3 : add128 w.c.balance n = .ok (w.c.balance + n) := (add128_ok _ _ _).2 ⟨hbal, rfl⟩
  refine ⟨{ w with ledger := l
                   c := { w.c with staked := w.c.staked.save a (w.c.stakedOf a + k) b'.height
                                   stakedTotal := w.c.stakedTotal.save () (w.c.total + k) b'.height
                                   balance := w.c.balance + n } }, { hooks := hookMsgs w.c.hooks true a k }, ?_, ?_, rfl, ?_⟩
  · simp only [sys, step, require, ha, ne_eq, not_false_eq_true, decide_true, if_true, ok_bind, hl, exec, execReceive,
      execStake, hk, e1, e2, e3, settle]
  · rw [← hkn]
    show ((w.c.staked.save a (w.c.stakedOf a + k) b'.height).get a).getD 0 = _
    rw [Snap.get_save, if_pos rfl]
    rfl
  · show getD0 l a + n = getD0 w.ledger a
    rw [g2, if_pos rfl]
    omega

/-- **C98.** Whoever stakes loses less than the value of one share by the rounding, if somebody is staked already. -/
theorem C98_rounding {n : Nat} {out : Out} (h : sys.Reach w b log) (ha : a ≠ w.self) (h0 : w.c.total ≠ 0)
    (hs : sys.step w b' (.send a n .stake) = .ok (w', out)) : wealth w a - price w < wealth w' a := by
  have hi := inv_reach h
  have hpool := hi.pool
  have hn : n ≤ tokens w a := by
    replace hs : step w b' (.send a n .stake) = .ok (w', out) := hs
    simp only [step, bind_ok, require_ok] at hs
    obtain ⟨_, _, l, hl, _⟩ := hs
    exact (Ledger.move_get hl ha a).1
  obtain ⟨w2, o2, hs2, k1, k2, k3⟩ := C98_stakeable (b' := b') h ha hn
  obtain ⟨rfl, rfl⟩ : w2 = w' ∧ o2 = out := by
    have := hs2.symm.trans hs
    simp only [Except.ok.injEq, Prod.mk.injEq] at this
    exact this
  rw [if_neg h0] at k1
  have hcl : w2.c.claims = w.c.claims := by
    replace hs : step w b' (.send a n .stake) = .ok (w2, o2) := hs
    cases step_effect hs with
    | stake => rfl
  have hT' : w2.c.total ≠ 0 := by
    replace hs : step w b' (.send a n .stake) = .ok (w2, o2) := hs
    cases step_effect hs with
    | stake _ _ k => 
      show ((w.c.stakedTotal.save () (w.c.total + k) b'.height).get ()).getD 0 ≠ 0
      rw [total_save]; omega
  have hp := C28_price_step h (b' := b') (call := .send a n .stake) (out := o2) hs h0 hT'
  have hB : w.c.balance ≠ 0 := by omega
  have hdiv : w.c.total * n < (w.c.total * n / w.c.balance + 1) * w.c.balance := by
    have := Nat.lt_div_mul_add (a := w.c.total * n) (Nat.pos_of_ne_zero hB)
    rw [Nat.add_mul, Nat.one_mul]; exact this
  have p0 : (0 : ℚ) < w.c.total := by exact_mod_cast Nat.pos_of_ne_zero h0
  have hworth : (n : ℚ) < ((w.c.total * n / w.c.balance : Nat) + 1) * price w := by
    unfold price totalValue
    rw [← mul_div_assoc, lt_div_iff₀ p0]
    have : ((w.c.total * n : Nat) : ℚ) < (((w.c.total * n / w.c.balance + 1) * w.c.balance : Nat) : ℚ) := by
      exact_mod_cast hdiv
    push_cast at this ⊢
    linarith
  unfold wealth
  rw [hcl, k1]
  have e : (tokens w a : ℚ) = tokens w2 a + n := by exact_mod_cast k3.symm
  rw [e]
  have hm : ((w.c.stakedOf a + w.c.total * n / w.c.balance : Nat) : ℚ) * price w ≤
      ((w.c.stakedOf a + w.c.total * n / w.c.balance : Nat) : ℚ) * price w2 :=
    mul_le_mul_of_nonneg_left hp (by positivity)
  unfold totalValue at k1 ⊢
  push_cast at hm hworth ⊢
  nlinarith

/-- **C98.** The value of one share can be made large: address 2 stakes a single token, makes it worth 500 by funding the
pool, address 3 then stakes 499 tokens and gets nothing for them, and address 2 takes everything out. -/
theorem C98_rounding_witness : (match sys.play exW ⟨1, 1⟩ [(⟨2, 2⟩, .send 2 1 .stake), (⟨3, 3⟩, .send 2 499 .fund),
      (⟨4, 4⟩, .send 3 499 .stake), (⟨5, 5⟩, .exec 2 (.unstake 1)), (⟨15, 15⟩, .exec 2 .claim)] with
    | some (w, _, _) => decide (tokens exW 3 = 1000 ∧ tokens w 3 = 501 ∧ w.c.stakedOf 3 = 0 ∧ w.c.claims.of 3 = [] ∧
        tokens exW 2 = 1000 ∧ tokens w 2 = 1499)
    | none => false) = true := by decide +kernel

/-- **C98.** With a stake of `2 ^ 64` units (less than 20 tokens, if they have 18 decimals), alone in the pool,
`StakedValue` does not answer, although the stake can be taken out. -/
theorem C98_answers_witness : (match sys.play { exW with ledger := [(2, 2 ^ 65)] } ⟨1, 1⟩
      [(⟨2, 2⟩, .send 2 (2 ^ 64) .stake)] with
    | some (w, b, _) => decide (w.c.stakedOf 2 = 2 ^ 64 ∧ totalValue w.c = 2 ^ 64) && !(stakedValue w.c 2).isOk &&
        (sys.step w b (.exec 2 (.unstake (2 ^ 64)))).isOk
    | none => false) = true := by decide +kernel

/-- **C98.** A state as the theorems assume it: values are reported, and add up to the total value. -/
theorem C98_example : (match sys.play exW ⟨1, 1⟩ (exCalls.take 3) with
    | some (w, b, _) => decide (stakedValue w.c 2 = .ok 150 ∧ stakedValue w.c 3 = .ok 75 ∧ totalValue w.c = 225 ∧
        w.c.total = 150) && (sys.step w b (.exec 2 (.unstake (w.c.stakedOf 2)))).isOk
    | none => false) = true := by decide +kernel

end Verif.Cw20Stake
