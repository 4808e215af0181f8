import Verif.Spec.Cw20Stake
import Mathlib.Tactic.Ring
import Mathlib.Tactic.FieldSimp
import Mathlib.Tactic.Linarith
import Mathlib.Tactic.Positivity
import Mathlib.Tactic.NormNum
import Mathlib.Algebra.Order.Field.Basic
/-!
# Lemmas about cw20-stake
-/

namespace Verif.Cw20Stake
open Verif Verif.Spec.Stake

theorem total_save (x : Snap Unit Nat) (t h : Nat) : ((x.save () t h).get ()).getD 0 = t := by
  simp [Snap.get_save]

/-- The shares given for `sent` tokens. -/
theorem stake_shares {t b n k : Nat} (h : amountToStake t b n = .ok k) :
    (t = 0 ∨ b = 0) ∧ k = n ∨ t ≠ 0 ∧ b ≠ 0 ∧ k = t * n / b := by
  unfold amountToStake at h
  split at h
  · injection h with h; exact Or.inl ⟨by assumption, h.symm⟩
  · rename_i hc
    split at h
    · injection h with h
      exact Or.inr ⟨fun h => hc (Or.inl h), fun h => hc (Or.inr h), h.symm⟩
    · cases h

theorem claim_amount {t b m n : Nat} (h : amountToClaim t b m = .ok n) :
    t ≠ 0 ∧ n = m * b / t ∧ n < U128 := by
  unfold amountToClaim at h
  split at h
  · cases h
  · split at h
    · injection h with h; subst h; exact ⟨by assumption, rfl, by assumption⟩
    · cases h

theorem stake_inv {s s' : State} {b : Block} {a : Addr} {n : Nat} {out : Out}
    (h : execStake s b a n = .ok (s', out)) :
    ∃ k, amountToStake s.total s.balance n = .ok k ∧ s.stakedOf a + k < U128 ∧ s.total + k < U128 ∧
      s.balance + n < U128 ∧
      s' = { s with staked := s.staked.save a (s.stakedOf a + k) b.height
                    stakedTotal := s.stakedTotal.save () (s.total + k) b.height
                    balance := s.balance + n } ∧
      out = { hooks := hookMsgs s.hooks true a k } := by
  simp only [execStake, bind_ok, add128_ok, Except.ok.injEq, Prod.mk.injEq] at h
  obtain ⟨k, hk, _, ⟨h1, rfl⟩, _, ⟨h2, rfl⟩, _, ⟨h3, rfl⟩, rfl, rfl⟩ := h
  exact ⟨k, hk, h1, h2, h3, rfl, rfl⟩

/-- The state after the bookkeeping of an unstaking, before the release. -/
def unstaked (s : State) (b : Block) (a : Addr) (m n : Nat) : State :=
  { s with staked := s.staked.save a (s.stakedOf a - m) b.height
           stakedTotal := s.stakedTotal.save () (s.total - m) b.height
           balance := s.balance - n }

theorem unstake_inv {s s' : State} {b : Block} {a : Addr} {m : Nat} {out : Out}
    (h : execUnstake s b a m = .ok (s', out)) :
    ∃ n, n = m * s.balance / s.total ∧ s.total ≠ 0 ∧ m + s.balance < U128 - 1 ∧ m ≤ s.total ∧
      m ≤ s.stakedOf a ∧ n ≤ s.balance ∧ out.hooks = hookMsgs s.hooks false a m ∧
      ((s.config.unstakingDuration = none ∧ s' = unstaked s b a m n ∧ out.pay = some (a, n)) ∨
       (∃ d, s.config.unstakingDuration = some d ∧ (s.claims.of a).length < MAX_CLAIMS ∧
          s' = { unstaked s b a m n with claims := s.claims.create a n (d.after b) } ∧
          out.pay = none)) := by
  simp only [execUnstake, bind_ok, require_ok, sub128_ok, decide_eq_true_eq] at h
  obtain ⟨_, h1, _, h2, _, h3, n, hn, _, ⟨h4, rfl⟩, _, ⟨h5, rfl⟩, _, ⟨h6, rfl⟩, h⟩ := h
  obtain ⟨_, hn, _⟩ := claim_amount hn
  refine ⟨n, hn, h1, h2, h3, h4, h6, ?_⟩
  unfold release at h
  simp only at h
  split at h
  · rename_i hd
    simp only [Except.ok.injEq, Prod.mk.injEq] at h
    obtain ⟨rfl, rfl⟩ := h
    exact ⟨rfl, Or.inl ⟨hd, rfl, rfl⟩⟩
  · rename_i d hd
    split at h
    · cases h
    · rename_i hc
      simp only [Except.ok.injEq, Prod.mk.injEq] at h
      obtain ⟨rfl, rfl⟩ := h
      exact ⟨rfl, Or.inr ⟨d, hd, by omega, rfl, rfl⟩⟩

theorem claim_inv {s s' : State} {b : Block} {a : Addr} {out : Out}
    (h : execClaim s b a = .ok (s', out)) :
    ∃ c n, s.claims.claimTokens a b = .ok (c, n) ∧ n ≠ 0 ∧ s' = { s with claims := c } ∧
      out = { pay := some (a, n) } := by
  simp only [execClaim, bind_ok, require_ok, decide_eq_true_eq, Except.ok.injEq, Prod.mk.injEq] at h
  obtain ⟨⟨c, n⟩, hc, h⟩ := h
  simp only [bind_ok, require_ok, decide_eq_true_eq, Except.ok.injEq, Prod.mk.injEq] at h
  obtain ⟨_, hn, rfl, rfl⟩ := h
  exact ⟨c, n, hc, hn, rfl, rfl⟩

theorem settle_inv {w w' : World} {c : State} {o o' : Out} (h : settle w c o = .ok (w', o')) :
    o' = o ∧ ((o.pay = none ∧ w' = { w with c := c }) ∨
      ∃ a n l, o.pay = some (a, n) ∧ w.ledger.move w.self a n = .ok l ∧
        w' = { w with c := c, ledger := l }) := by
  unfold settle at h
  split at h
  · rename_i hp
    simp only [Except.ok.injEq, Prod.mk.injEq] at h
    exact ⟨h.2.symm, Or.inl ⟨hp, h.1.symm⟩⟩
  · rename_i a n hp
    simp only [bind_ok, Except.ok.injEq, Prod.mk.injEq] at h
    obtain ⟨l, hl, rfl, rfl⟩ := h
    exact ⟨rfl, Or.inr ⟨a, n, l, hp, hl, rfl⟩⟩

/-- The state parts that the administrative messages do not touch. -/
structure SameMoney (s s' : State) : Prop where
  staked : s'.staked = s.staked
  total : s'.stakedTotal = s.stakedTotal
  claims : s'.claims = s.claims
  balance : s'.balance = s.balance
  token : s'.config.token = s.config.token

/-- The successful transactions, with their effects. -/
inductive Effect (w : World) (b : Block) : Call → World → Out → Prop where
  | stake (a : Addr) (n k : Nat) (l : Ledger Addr) (ha : a ≠ w.self)
      (hl : w.ledger.move a w.self n = .ok l)
      (hk : amountToStake w.c.total w.c.balance n = .ok k) (hs : execStake w.c b a n = .ok
        ({ w.c with staked := w.c.staked.save a (w.c.stakedOf a + k) b.height
                    stakedTotal := w.c.stakedTotal.save () (w.c.total + k) b.height
                    balance := w.c.balance + n }, { hooks := hookMsgs w.c.hooks true a k })) :
      Effect w b (.send a n .stake)
        { w with ledger := l
                 c := { w.c with staked := w.c.staked.save a (w.c.stakedOf a + k) b.height
                                 stakedTotal := w.c.stakedTotal.save () (w.c.total + k) b.height
                                 balance := w.c.balance + n } }
        { hooks := hookMsgs w.c.hooks true a k }
  | fund (a : Addr) (n : Nat) (l : Ledger Addr) (ha : a ≠ w.self)
      (hl : w.ledger.move a w.self n = .ok l) :
      Effect w b (.send a n .fund) { w with ledger := l, c := { w.c with balance := w.c.balance + n } } {}
  | payout (a : Addr) (m n : Nat) (l : Ledger Addr) (out : Out) (ha : a ≠ w.self)
      (hn : n = m * w.c.balance / w.c.total) (ht : w.c.total ≠ 0) (hm : m ≤ w.c.total)
      (hs : m ≤ w.c.stakedOf a) (hb : n ≤ w.c.balance) (hd : w.c.config.unstakingDuration = none)
      (hl : w.ledger.move w.self a n = .ok l) (ho : out.pay = some (a, n))
      (hh : out.hooks = hookMsgs w.c.hooks false a m) :
      Effect w b (.exec a (.unstake m)) { w with ledger := l, c := unstaked w.c b a m n } out
  | unbond (a : Addr) (m n : Nat) (d : Duration) (out : Out) (ha : a ≠ w.self)
      (hn : n = m * w.c.balance / w.c.total) (ht : w.c.total ≠ 0) (hm : m ≤ w.c.total)
      (hs : m ≤ w.c.stakedOf a) (hb : n ≤ w.c.balance) (hd : w.c.config.unstakingDuration = some d)
      (hlen : (w.c.claims.of a).length < MAX_CLAIMS) (ho : out.pay = none)
      (hh : out.hooks = hookMsgs w.c.hooks false a m) :
      Effect w b (.exec a (.unstake m))
        { w with c := { unstaked w.c b a m n with claims := w.c.claims.create a n (d.after b) } } out
  | claim (a : Addr) (n : Nat) (c : Claims) (l : Ledger Addr) (ha : a ≠ w.self)
      (hc : w.c.claims.claimTokens a b = .ok (c, n)) (hn : n ≠ 0)
      (hl : w.ledger.move w.self a n = .ok l) :
      Effect w b (.exec a .claim) { w with ledger := l, c := { w.c with claims := c } } { pay := some (a, n) }
  | admin (a : Addr) (m : Msg) (c : State) (hs : SameMoney w.c c)
      (hm : (∀ n, m ≠ .unstake n) ∧ m ≠ .claim) :
      Effect w b (.exec a m) { w with c := c } {}
  | transfer (a d : Addr) (n : Nat) (l : Ledger Addr) (ha : a ≠ w.self) (hl : w.ledger.move a d n = .ok l) :
      Effect w b (.transfer a d n) { w with ledger := l } {}
  | mint (d : Addr) (n : Nat) (l : Ledger Addr) (hs : total w.ledger + n < U128)
      (hl : w.ledger.credit d n = .ok l) :
      Effect w b (.mint d n) { w with ledger := l } {}
  | burn (a : Addr) (n : Nat) (l : Ledger Addr) (ha : a ≠ w.self) (hl : w.ledger.debit a n = .ok l) :
      Effect w b (.burn a n) { w with ledger := l } {}

theorem step_effect {w w' : World} {b : Block} {call : Call} {out : Out}
    (h : step w b call = .ok (w', out)) : Effect w b call w' out := by
  cases call with
  | exec a m =>
    simp only [step, bind_ok, require_ok, decide_eq_true_eq] at h
    obtain ⟨_, ⟨htok, hself⟩, ⟨c, o⟩, he, hset⟩ := h
    obtain ⟨rfl, hset⟩ := settle_inv hset
    cases m with
    | receive x n r =>
      simp only [exec, execReceive, bind_ok, require_ok, decide_eq_true_eq] at he
      obtain ⟨_, he, _⟩ := he
      exact absurd he htok
    | unstake m =>
      simp only [exec] at he
      obtain ⟨n, hn, ht, _, hm, hs, hb, hh, he⟩ := unstake_inv he
      rcases he with ⟨hd, rfl, ho⟩ | ⟨d, hd, hlen, rfl, ho⟩
      · rcases hset with ⟨hp, _⟩ | ⟨x, y, l, hp, hl, rfl⟩
        · rw [ho] at hp; cases hp
        · rw [ho] at hp; cases hp
          exact .payout a m n l out hself hn ht hm hs hb hd hl ho hh
      · rcases hset with ⟨_, rfl⟩ | ⟨x, y, l, hp, hl, rfl⟩
        · exact .unbond a m n d out hself hn ht hm hs hb hd hlen ho hh
        · rw [ho] at hp; cases hp
    | claim =>
      simp only [exec] at he
      obtain ⟨c', n, hc, hn, rfl, rfl⟩ := claim_inv he
      rcases hset with ⟨hp, _⟩ | ⟨x, y, l, hp, hl, rfl⟩
      · cases hp
      · cases hp
        exact .claim a n c' l hself hc hn hl
    | updateConfig d =>
      simp only [exec, execUpdateConfig, bind_ok, Except.ok.injEq, Prod.mk.injEq] at he
      obtain ⟨_, _, _, _, rfl, rfl⟩ := he
      rcases hset with ⟨_, rfl⟩ | ⟨x, y, l, hp, hl, rfl⟩
      · exact .admin a _ _ ⟨rfl, rfl, rfl, rfl, rfl⟩ (by simp)
      · cases hp
    | addHook x =>
      simp only [exec, bind_ok, Except.ok.injEq, Prod.mk.injEq] at he
      obtain ⟨_, _, _, _, rfl, rfl⟩ := he
      rcases hset with ⟨_, rfl⟩ | ⟨x, y, l, hp, hl, rfl⟩
      · exact .admin a _ _ ⟨rfl, rfl, rfl, rfl, rfl⟩ (by simp)
      · cases hp
    | removeHook x =>
      simp only [exec, bind_ok, Except.ok.injEq, Prod.mk.injEq] at he
      obtain ⟨_, _, _, _, rfl, rfl⟩ := he
      rcases hset with ⟨_, rfl⟩ | ⟨x, y, l, hp, hl, rfl⟩
      · exact .admin a _ _ ⟨rfl, rfl, rfl, rfl, rfl⟩ (by simp)
      · cases hp
    | updateOwnership x =>
      simp only [exec, bind_ok, Except.ok.injEq, Prod.mk.injEq] at he
      obtain ⟨_, _, rfl, rfl⟩ := he
      rcases hset with ⟨_, rfl⟩ | ⟨x, y, l, hp, hl, rfl⟩
      · exact .admin a _ _ ⟨rfl, rfl, rfl, rfl, rfl⟩ (by simp)
      · cases hp
  | send a n r =>
    simp only [step, bind_ok, require_ok, decide_eq_true_eq] at h
    obtain ⟨_, hself, l, hl, ⟨c, o⟩, he, hset⟩ := h
    obtain ⟨rfl, hset⟩ := settle_inv hset
    simp only [exec, execReceive, bind_ok, require_ok, decide_true, true_and, exists_const] at he
    cases r with
    | stake =>
      simp only at he
      have he' := he
      obtain ⟨k, hk, _, _, _, rfl, rfl⟩ := stake_inv he
      rcases hset with ⟨_, rfl⟩ | ⟨x, y, l, hp, hl, rfl⟩
      · exact .stake a n k l hself hl hk he'
      · cases hp
    | fund =>
      simp only [execFund, bind_ok, add128_ok, Except.ok.injEq, Prod.mk.injEq] at he
      obtain ⟨_, ⟨_, rfl⟩, rfl, rfl⟩ := he
      rcases hset with ⟨_, rfl⟩ | ⟨x, y, l, hp, hl, rfl⟩
      · exact .fund a n l hself hl
      · cases hp
  | transfer a d n =>
    simp only [step, bind_ok, require_ok, decide_eq_true_eq, Except.ok.injEq, Prod.mk.injEq] at h
    obtain ⟨_, ha, l, hl, rfl, rfl⟩ := h
    exact .transfer a d n l ha hl
  | mint d n =>
    simp only [step, bind_ok, require_ok, decide_eq_true_eq, Except.ok.injEq, Prod.mk.injEq] at h
    obtain ⟨_, hs, l, hl, rfl, rfl⟩ := h
    exact .mint d n l hs hl
  | burn a n =>
    simp only [step, bind_ok, require_ok, decide_eq_true_eq, Except.ok.injEq, Prod.mk.injEq] at h
    obtain ⟨_, ha, l, hl, rfl, rfl⟩ := h
    exact .burn a n l ha hl

/-- The invariant of the contract and its token. -/
structure Inv (w : World) (h : Nat) : Prop where
  sum : w.c.total = total w.c.staked.cur
  pool : w.c.total ≤ w.c.balance
  covered : w.c.balance + w.c.claims.owed ≤ tokens w w.self
  supply : total w.ledger < U128
  wf : w.c.staked.cur.WF
  token : w.c.config.token ≠ w.self
  upS : w.c.staked.UpTo h
  upT : w.c.stakedTotal.UpTo h
  init : (w.c.stakedTotal.get ()).isSome

theorem inv_init {b : Block} {w : World} (h : sys.init b w) : Inv w b.height := by
  obtain ⟨owner, token, d, hi, hs, ht⟩ := h
  simp only [instantiate, bind_ok, Except.ok.injEq] at hi
  obtain ⟨_, _, hi⟩ := hi
  obtain ⟨c, self, l⟩ := w
  simp only at hi hs ht
  subst hi
  refine ⟨by simp [State.total, Snap.get_save, Snap.empty, total], ?_, ?_, hs, ?_, ht, ?_, ?_, ?_⟩
  · simp [State.total, Snap.get_save]
  · simp [Claims.owed, AMap.sum]
  · simp [Snap.empty, AMap.WF]
  · exact Snap.upTo_empty _
  · exact Snap.upTo_save (Snap.upTo_empty 0) (Nat.zero_le _)
  · simp [Snap.get_save]

theorem stakedOf_cur (s : State) (a : Addr) : s.stakedOf a = getD0 s.staked.cur a := rfl

theorem stakedOf_le {w : World} {h : Nat} (hi : Inv w h) (a : Addr) : w.c.stakedOf a ≤ w.c.total := by
  rw [hi.sum, stakedOf_cur]; exact getD0_le_total _ _

theorem stakedOf_add_le {w : World} {h : Nat} (hi : Inv w h) {a u : Addr} (hne : a ≠ u) :
    w.c.stakedOf a + w.c.stakedOf u ≤ w.c.total := by
  rw [hi.sum, stakedOf_cur, stakedOf_cur, total_eq, ← at_val, ← at_val]
  exact AMap.at_add_at_le_sum _ _ hne

/-- Shares given never exceed the tokens put in. -/
theorem shares_le {t b n k : Nat} (h : amountToStake t b n = .ok k) (hle : t ≤ b) : k ≤ n := by
  rcases stake_shares h with ⟨_, rfl⟩ | ⟨_, hb, rfl⟩
  · exact Nat.le_refl _
  · exact Nat.div_le_of_le_mul (Nat.mul_le_mul_right _ hle)

theorem unstake_pool {t b m : Nat} (ht : t ≠ 0) (hm : m ≤ t) (hle : t ≤ b) :
    t - m ≤ b - m * b / t ∧ m * b / t ≤ b := by
  have h1 : m * b / t * t ≤ m * b := Nat.div_mul_le_self _ _
  have h2 : m * b / t ≤ b := by
    apply Nat.div_le_of_le_mul
    exact Nat.mul_le_mul_right _ hm
  refine ⟨?_, h2⟩
  obtain ⟨k, rfl⟩ := Nat.exists_eq_add_of_le hm
  obtain ⟨r, rfl⟩ := Nat.exists_eq_add_of_le hle
  -- b - q ≥ k with q * t ≤ m * b
  have h3 : m * (m + k + r) / (m + k) ≤ m + r := by
    rw [Nat.div_le_iff_le_mul_add_pred (by omega)]
    nlinarith
  omega

theorem inv_step {w w' : World} {b : Block} {call : Call} {out : Out} {h : Nat} (hi : Inv w h)
    (hle : h ≤ b.height) (hs : step w b call = .ok (w', out)) : Inv w' b.height ∧ w'.self = w.self := by
  have he := step_effect hs
  have hsum := hi.sum
  have hpool := hi.pool
  have hcov := hi.covered
  simp only [tokens] at hcov
  cases he with
  | stake a n k l ha hl hk hst =>
    refine ⟨⟨?_, ?_, ?_, ?_, AMap.WF_set hi.wf _ _, hi.token, Snap.upTo_save hi.upS hle,
      Snap.upTo_save hi.upT hle, by simp [Snap.get_save]⟩, rfl⟩
    · have e := total_set w.c.staked.cur a (w.c.stakedOf a + k)
      refine (total_save _ _ _).trans ?_
      rw [stakedOf_cur] at e
      show _ = total (w.c.staked.cur.set a (w.c.stakedOf a + k))
      rw [stakedOf_cur]
      omega
    · have := shares_le hk hpool
      simp only [State.total, Snap.get_save, if_true, Option.getD_some] at hpool ⊢
      omega
    · obtain ⟨h1, h2⟩ := Ledger.move_get hl ha w.self
      simp only [tokens, h2, Ne.symm ha, if_true, if_false]; omega
    · simp only [Ledger.move_total hl]; exact hi.supply
  | fund a n l ha hl =>
    refine ⟨⟨hsum, ?_, ?_, ?_, hi.wf, hi.token, Snap.upTo_mono hi.upS hle, Snap.upTo_mono hi.upT hle,
      hi.init⟩, rfl⟩
    · simp only [State.total] at hpool ⊢; omega
    · obtain ⟨h1, h2⟩ := Ledger.move_get hl ha w.self
      simp only [tokens, h2, Ne.symm ha, if_true, if_false]; omega
    · simp only [Ledger.move_total hl]; exact hi.supply
  | payout a m n l _ ha hn ht hm hsa hb hd hl ho hh =>
    obtain ⟨hp1, _⟩ := unstake_pool ht hm hpool
    refine ⟨⟨?_, ?_, ?_, ?_, AMap.WF_set hi.wf _ _, hi.token, Snap.upTo_save hi.upS hle,
      Snap.upTo_save hi.upT hle, by simp [unstaked, Snap.get_save]⟩, rfl⟩
    · have e := total_set w.c.staked.cur a (w.c.stakedOf a - m)
      refine (total_save _ _ _).trans ?_
      rw [stakedOf_cur] at e hsa
      show _ = total (w.c.staked.cur.set a (w.c.stakedOf a - m))
      rw [stakedOf_cur]
      omega
    · simp only [State.total, unstaked, Snap.get_save, if_true, Option.getD_some] at hp1 ⊢
      rw [hn]; exact hp1
    · obtain ⟨h1, h2⟩ := Ledger.move_get hl (Ne.symm ha) w.self
      simp only [tokens, h2, if_true, unstaked]; omega
    · simp only [Ledger.move_total hl]; exact hi.supply
  | unbond a m n d _ ha hn ht hm hsa hb hd hlen ho hh =>
    obtain ⟨hp1, _⟩ := unstake_pool ht hm hpool
    refine ⟨⟨?_, ?_, ?_, hi.supply, AMap.WF_set hi.wf _ _, hi.token, Snap.upTo_save hi.upS hle,
      Snap.upTo_save hi.upT hle, by simp [unstaked, Snap.get_save]⟩, rfl⟩
    · have e := total_set w.c.staked.cur a (w.c.stakedOf a - m)
      refine (total_save _ _ _).trans ?_
      rw [stakedOf_cur] at e hsa
      show _ = total (w.c.staked.cur.set a (w.c.stakedOf a - m))
      rw [stakedOf_cur]
      omega
    · simp only [State.total, unstaked, Snap.get_save, if_true, Option.getD_some] at hp1 ⊢
      rw [hn]; exact hp1
    · simp only [tokens, unstaked, Claims.owed_create]; omega
  | claim a n c l ha hc hn hl =>
    have ho := Claims.owed_claim hc
    refine ⟨⟨hsum, hpool, ?_, ?_, hi.wf, hi.token, Snap.upTo_mono hi.upS hle, Snap.upTo_mono hi.upT hle,
      hi.init⟩, rfl⟩
    · obtain ⟨h1, h2⟩ := Ledger.move_get hl (Ne.symm ha) w.self
      simp only [tokens, h2, if_true]; omega
    · simp only [Ledger.move_total hl]; exact hi.supply
  | admin a m c hsm hm =>
    refine ⟨⟨?_, ?_, ?_, hi.supply, ?_, ?_, ?_, ?_, ?_⟩, rfl⟩
    · simp only [State.total, hsm.total, hsm.staked]; exact hsum
    · simp only [State.total, hsm.total, hsm.balance]; exact hpool
    · simp only [hsm.balance, hsm.claims, tokens]; exact hcov
    · simp only [hsm.staked]; exact hi.wf
    · simp only [hsm.token]; exact hi.token
    · simp only [hsm.staked]; exact Snap.upTo_mono hi.upS hle
    · simp only [hsm.total]; exact Snap.upTo_mono hi.upT hle
    · simp only [hsm.total]; exact hi.init
  | transfer a d n l ha hl =>
    refine ⟨⟨hsum, hpool, ?_, ?_, hi.wf, hi.token, Snap.upTo_mono hi.upS hle, Snap.upTo_mono hi.upT hle,
      hi.init⟩, rfl⟩
    · by_cases had : a = d
      · subst had
        simp only [Ledger.move, bind_ok] at hl
        obtain ⟨l1, h1, h2⟩ := hl
        simp only [tokens, Ledger.credit_get h2, Ledger.debit_get h1, ha, if_false]; exact hcov
      · obtain ⟨h1, h2⟩ := Ledger.move_get hl had w.self
        simp only [tokens, h2, Ne.symm ha, if_false]
        split
        · rename_i hd; subst hd; omega
        · exact hcov
    · simp only [Ledger.move_total hl]; exact hi.supply
  | mint d n l hsup hl =>
    refine ⟨⟨hsum, hpool, ?_, ?_, hi.wf, hi.token, Snap.upTo_mono hi.upS hle, Snap.upTo_mono hi.upT hle,
      hi.init⟩, rfl⟩
    · simp only [tokens, Ledger.credit_get hl]
      split
      · rename_i hd; subst hd; omega
      · exact hcov
    · simp only [Ledger.credit_total hl]; exact hsup
  | burn a n l ha hl =>
    refine ⟨⟨hsum, hpool, ?_, ?_, hi.wf, hi.token, Snap.upTo_mono hi.upS hle, Snap.upTo_mono hi.upT hle,
      hi.init⟩, rfl⟩
    · simp only [tokens, Ledger.debit_get hl, ha, if_false]; exact hcov
    · have h1 := Ledger.debit_total hl
      have h2 := hi.supply
      simp only; omega

theorem inv_reach {w : World} {b : Block} {log : List (Ev World Block Call Out)}
    (h : sys.Reach w b log) : Inv w b.height := by
  refine Sys.Reach.induct (P := fun w b _ => Inv w b.height) (fun b s hi => inv_init hi) ?_ h
  intro s b l env call out s' _ hi hb hs
  exact (inv_step hi hb.1 hs).1

end Verif.Cw20Stake
