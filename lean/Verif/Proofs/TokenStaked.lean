import Verif.Spec.TokenStaked
import Verif.Base.SnapHistory
/-!
# Lemmas about dao-voting-token-staked
-/

namespace Verif.TokenStaked
open Verif Verif.Active Verif.Spec.TokenStaked
open Verif.Cw20Stake (validateDuration HookMsg hookMsgs)

theorem total_save (x : Snap Unit Nat) (t h : Nat) : ((x.save () t h).get ()).getD 0 = t := by
  simp [Snap.get_save]

/-- The balances after staking. -/
def afterStake (s : State) (b : Block) (a : Addr) (n : Nat) : State :=
  { s with staked := s.staked.save a (s.stakedOf a + n) b.height
           stakedTotal := s.stakedTotal.save () (s.total + n) b.height }

/-- The balances after unstaking. -/
def afterUnstake (s : State) (b : Block) (a : Addr) (n : Nat) : State :=
  { s with staked := s.staked.save a (s.stakedOf a - n) b.height
           stakedTotal := s.stakedTotal.save () (s.total - n) b.height }

theorem stake_inv {s s' : State} {b : Block} {a : Addr} {n : Nat} {out : Out}
    (h : execStake s b a n = .ok (s', out)) :
    n ≠ 0 ∧ s.stakedOf a + n < U128 ∧ s.total + n < U128 ∧ s' = afterStake s b a n ∧
      out = { hooks := hookMsgs s.hooks true a n } := by
  simp only [execStake, bind_ok, require_ok, decide_eq_true_eq, add128_ok, Except.ok.injEq,
    Prod.mk.injEq] at h
  obtain ⟨_, h0, _, ⟨h1, rfl⟩, _, ⟨h2, rfl⟩, rfl, rfl⟩ := h
  exact ⟨h0, h1, h2, rfl, rfl⟩

theorem unstake_inv {s s' : State} {b : Block} {a : Addr} {n : Nat} {out : Out}
    (h : execUnstake s b a n = .ok (s', out)) :
    n ≠ 0 ∧ n ≤ s.stakedOf a ∧ n ≤ s.total ∧ out.hooks = hookMsgs s.hooks false a n ∧
      ((s.unstakingDuration = none ∧ s' = afterUnstake s b a n ∧ out.pay = some (a, n)) ∨
       (∃ d, s.unstakingDuration = some d ∧ (s.claims.of a).length < MAX_CLAIMS ∧
          s' = { afterUnstake s b a n with claims := s.claims.create a n (d.after b) } ∧
          out.pay = none)) := by
  simp only [execUnstake, bind_ok, require_ok, sub128_ok, decide_eq_true_eq] at h
  obtain ⟨_, h0, _, ⟨h1, rfl⟩, _, ⟨h2, rfl⟩, h⟩ := h
  refine ⟨h0, h1, h2, ?_⟩
  unfold release at h
  simp only at h
  split at h
  · rename_i hd
    simp only [Except.ok.injEq, Prod.mk.injEq] at h
    obtain ⟨rfl, rfl⟩ := h
    exact ⟨rfl, Or.inl ⟨hd, rfl, rfl⟩⟩
  · rename_i d hd
    split at h
    · cases h
    · rename_i hc
      simp only [Except.ok.injEq, Prod.mk.injEq] at h
      obtain ⟨rfl, rfl⟩ := h
      exact ⟨rfl, Or.inr ⟨d, hd, by omega, rfl, rfl⟩⟩

theorem claim_inv {s s' : State} {b : Block} {a : Addr} {out : Out}
    (h : execClaim s b a = .ok (s', out)) :
    ∃ c n, s.claims.claimTokens a b = .ok (c, n) ∧ n ≠ 0 ∧ s' = { s with claims := c } ∧
      out = { pay := some (a, n) } := by
  simp only [execClaim, bind_ok] at h
  obtain ⟨⟨c, n⟩, hc, h⟩ := h
  simp only [bind_ok, require_ok, decide_eq_true_eq, Except.ok.injEq, Prod.mk.injEq] at h
  obtain ⟨_, hn, rfl, rfl⟩ := h
  exact ⟨c, n, hc, hn, rfl, rfl⟩

theorem settle_inv {w w' : World} {c : State} {o o' : Out} (h : settle w c o = .ok (w', o')) :
    o' = o ∧ ((o.pay = none ∧ w' = { w with c := c }) ∨
      ∃ a n l, o.pay = some (a, n) ∧ w.ledger.move w.self a n = .ok l ∧
        w' = { w with c := c, ledger := l }) := by
  unfold settle at h
  split at h
  · rename_i hp
    simp only [Except.ok.injEq, Prod.mk.injEq] at h
    exact ⟨h.2.symm, Or.inl ⟨hp, h.1.symm⟩⟩
  · rename_i a n hp
    simp only [bind_ok, Except.ok.injEq, Prod.mk.injEq] at h
    obtain ⟨l, hl, rfl, rfl⟩ := h
    exact ⟨rfl, Or.inr ⟨a, n, l, hp, hl, rfl⟩⟩

/-- The state parts that the administrative messages do not touch. -/
structure SameMoney (s s' : State) : Prop where
  staked : s'.staked = s.staked
  total : s'.stakedTotal = s.stakedTotal
  claims : s'.claims = s.claims
  dao : s'.dao = s.dao

/-- The successful transactions, with their effects. -/
inductive Effect (w : World) (b : Block) : Call → World → Out → Prop where
  | stake (a : Addr) (n : Nat) (l : Ledger Addr) (ha : a ≠ w.self) (hn : n ≠ 0)
      (hl : w.ledger.move a w.self n = .ok l) :
      Effect w b (.stake a n) { w with ledger := l, c := afterStake w.c b a n }
        { hooks := hookMsgs w.c.hooks true a n }
  | payout (a : Addr) (n : Nat) (l : Ledger Addr) (out : Out) (ha : a ≠ w.self) (hn : n ≠ 0)
      (hs : n ≤ w.c.stakedOf a) (ht : n ≤ w.c.total) (hd : w.c.unstakingDuration = none)
      (hl : w.ledger.move w.self a n = .ok l)
      (hh : out.hooks = hookMsgs w.c.hooks false a n) :
      Effect w b (.exec a (.unstake n)) { w with ledger := l, c := afterUnstake w.c b a n } out
  | unbond (a : Addr) (n : Nat) (d : Duration) (out : Out) (ha : a ≠ w.self) (hn : n ≠ 0)
      (hs : n ≤ w.c.stakedOf a) (ht : n ≤ w.c.total) (hd : w.c.unstakingDuration = some d)
      (hlen : (w.c.claims.of a).length < MAX_CLAIMS)
      (hh : out.hooks = hookMsgs w.c.hooks false a n) :
      Effect w b (.exec a (.unstake n))
        { w with c := { afterUnstake w.c b a n with claims := w.c.claims.create a n (d.after b) } } out
  | claim (a : Addr) (n : Nat) (c : Claims) (l : Ledger Addr) (ha : a ≠ w.self)
      (hc : w.c.claims.claimTokens a b = .ok (c, n)) (hn : n ≠ 0)
      (hl : w.ledger.move w.self a n = .ok l) :
      Effect w b (.exec a .claim) { w with ledger := l, c := { w.c with claims := c } } { pay := some (a, n) }
  | admin (m : Msg) (c : State) (hs : SameMoney w.c c) (hm : (∀ n, m ≠ .unstake n) ∧ m ≠ .claim) :
      Effect w b (.exec w.c.dao m) { w with c := c } {}
  | transfer (a d : Addr) (n : Nat) (l : Ledger Addr) (ha : a ≠ w.self) (hl : w.ledger.move a d n = .ok l) :
      Effect w b (.transfer a d n) { w with ledger := l } {}
  | mint (d : Addr) (n : Nat) (l : Ledger Addr) (hs : Verif.total w.ledger + n < U128)
      (hl : w.ledger.credit d n = .ok l) :
      Effect w b (.mint d n) { w with ledger := l } {}
  | burn (a : Addr) (n : Nat) (l : Ledger Addr) (ha : a ≠ w.self) (hl : w.ledger.debit a n = .ok l) :
      Effect w b (.burn a n) { w with ledger := l } {}

theorem step_effect {w w' : World} {b : Block} {call : Call} {out : Out}
    (h : step w b call = .ok (w', out)) : Effect w b call w' out := by
  cases call with
  | exec a m =>
    simp only [step, bind_ok, require_ok, decide_eq_true_eq] at h
    obtain ⟨_, hself, ⟨c, o⟩, he, hset⟩ := h
    obtain ⟨rfl, hset⟩ := settle_inv hset
    cases m with
    | unstake n =>
      simp only [exec] at he
      obtain ⟨hn, hs, ht, hh, he⟩ := unstake_inv he
      rcases he with ⟨hd, rfl, ho⟩ | ⟨d, hd, hlen, rfl, ho⟩
      · rcases hset with ⟨hp, _⟩ | ⟨x, y, l, hp, hl, rfl⟩
        · rw [ho] at hp; cases hp
        · rw [ho] at hp; cases hp
          exact .payout a n l out hself hn hs ht hd hl hh
      · rcases hset with ⟨_, rfl⟩ | ⟨x, y, l, hp, hl, rfl⟩
        · exact .unbond a n d out hself hn hs ht hd hlen hh
        · rw [ho] at hp; cases hp
    | claim =>
      simp only [exec] at he
      obtain ⟨c', n, hc, hn, rfl, rfl⟩ := claim_inv he
      rcases hset with ⟨hp, _⟩ | ⟨x, y, l, hp, hl, rfl⟩
      · cases hp
      · cases hp
        exact .claim a n c' l hself hc hn hl
    | updateConfig d =>
      simp only [exec, bind_ok, require_ok, decide_eq_true_eq, Except.ok.injEq, Prod.mk.injEq] at he
      obtain ⟨_, rfl, _, _, rfl, rfl⟩ := he
      rcases hset with ⟨_, rfl⟩ | ⟨x, y, l, hp, hl, rfl⟩
      · exact .admin _ _ ⟨rfl, rfl, rfl, rfl⟩ (by simp)
      · cases hp
    | updateActiveThreshold d =>
      simp only [exec, bind_ok, require_ok, decide_eq_true_eq, Except.ok.injEq, Prod.mk.injEq] at he
      obtain ⟨_, rfl, _, _, rfl, rfl⟩ := he
      rcases hset with ⟨_, rfl⟩ | ⟨x, y, l, hp, hl, rfl⟩
      · exact .admin _ _ ⟨rfl, rfl, rfl, rfl⟩ (by simp)
      · cases hp
    | addHook x =>
      simp only [exec, bind_ok, require_ok, decide_eq_true_eq, Except.ok.injEq, Prod.mk.injEq] at he
      obtain ⟨_, rfl, _, _, rfl, rfl⟩ := he
      rcases hset with ⟨_, rfl⟩ | ⟨x, y, l, hp, hl, rfl⟩
      · exact .admin _ _ ⟨rfl, rfl, rfl, rfl⟩ (by simp)
      · cases hp
    | removeHook x =>
      simp only [exec, bind_ok, require_ok, decide_eq_true_eq, Except.ok.injEq, Prod.mk.injEq] at he
      obtain ⟨_, rfl, _, _, rfl, rfl⟩ := he
      rcases hset with ⟨_, rfl⟩ | ⟨x, y, l, hp, hl, rfl⟩
      · exact .admin _ _ ⟨rfl, rfl, rfl, rfl⟩ (by simp)
      · cases hp
  | stake a n =>
    simp only [step, bind_ok, require_ok, decide_eq_true_eq] at h
    obtain ⟨_, hself, l, hl, ⟨c, o⟩, he, h⟩ := h
    simp only [Except.ok.injEq, Prod.mk.injEq] at h
    obtain ⟨rfl, rfl⟩ := h
    obtain ⟨hn, _, _, rfl, rfl⟩ := stake_inv he
    exact .stake a n l hself hn hl
  | transfer a d n =>
    simp only [step, bind_ok, require_ok, decide_eq_true_eq, Except.ok.injEq, Prod.mk.injEq] at h
    obtain ⟨_, ha, l, hl, rfl, rfl⟩ := h
    exact .transfer a d n l ha hl
  | mint d n =>
    simp only [step, bind_ok, require_ok, decide_eq_true_eq, Except.ok.injEq, Prod.mk.injEq] at h
    obtain ⟨_, hs, l, hl, rfl, rfl⟩ := h
    exact .mint d n l hs hl
  | burn a n =>
    simp only [step, bind_ok, require_ok, decide_eq_true_eq, Except.ok.injEq, Prod.mk.injEq] at h
    obtain ⟨_, hs, l, hl, rfl, rfl⟩ := h
    exact .burn a n l hs hl

theorem init_shape {b : Block} {w : World} (h : sys.init b w) :
    w.c.staked = Snap.empty ∧ w.c.stakedTotal = Snap.empty ∧ w.c.claims = [] ∧
      Verif.total w.ledger < U128 := by
  obtain ⟨dao, d, t, hi, _, hl⟩ := h
  simp only [instantiate, bind_ok, Except.ok.injEq] at hi
  obtain ⟨_, _, _, _, hi⟩ := hi
  rw [← hi]; exact ⟨rfl, rfl, rfl, hl⟩

/-- The balances and the total are written only at the current height. -/
theorem snapshotted :
    sys.Snapshotted (fun w => w.c.staked) ∧ sys.Snapshotted (fun w => w.c.stakedTotal) := by
  refine ⟨⟨?_, ?_⟩, ⟨?_, ?_⟩⟩
  · intro b s h; rw [(init_shape h).1]; exact Snap.upTo_empty _
  · intro s env call s' out h
    cases step_effect h with
    | stake => exact Snap.Writes.one _ _ _ _
    | payout => exact Snap.Writes.one _ _ _ _
    | unbond => exact Snap.Writes.one _ _ _ _
    | admin m c hsm hm => exact Snap.Writes.of_eq hsm.staked
    | claim => exact .refl
    | transfer => exact .refl
    | mint => exact .refl
    | burn => exact .refl
  · intro b s h; rw [(init_shape h).2.1]; exact Snap.upTo_empty _
  · intro s env call s' out h
    cases step_effect h with
    | stake => exact Snap.Writes.one _ _ _ _
    | payout => exact Snap.Writes.one _ _ _ _
    | unbond => exact Snap.Writes.one _ _ _ _
    | admin m c hsm hm => exact Snap.Writes.of_eq hsm.total
    | claim => exact .refl
    | transfer => exact .refl
    | mint => exact .refl
    | burn => exact .refl

theorem stakedOf_cur (s : State) (a : Addr) : s.stakedOf a = getD0 s.staked.cur a := rfl

/-- The facts every reachable state has: the total is the sum; the supply fits; the map is well formed. -/
structure Inv (w : World) : Prop where
  sum : w.c.total = Verif.total w.c.staked.cur
  supply : Verif.total w.ledger < U128
  wf : w.c.staked.cur.WF

theorem stakedOf_le {w : World} (hi : Inv w) (a : Addr) : w.c.stakedOf a ≤ w.c.total := by
  rw [hi.sum, stakedOf_cur]; exact getD0_le_total _ _

theorem sum_set {s : State} {x : Nat} (hs : s.total = Verif.total s.staked.cur) (a : Addr) :
    Verif.total (s.staked.cur.set a x) + s.stakedOf a = s.total + x := by
  have e := total_set s.staked.cur a x
  rw [hs]
  have := getD0_le_total s.staked.cur a
  rw [stakedOf_cur]; omega

theorem inv_step {w w' : World} {b : Block} {call : Call} {out : Out} (hi : Inv w)
    (hs : step w b call = .ok (w', out)) : Inv w' ∧ w'.self = w.self := by
  cases step_effect hs with
  | stake a n l ha hn hl =>
    refine ⟨⟨(total_save _ _ _).trans ?_, ?_, AMap.WF_set hi.wf _ _⟩, rfl⟩
    · have e := sum_set (x := w.c.stakedOf a + n) hi.sum a
      show _ = Verif.total (w.c.staked.cur.set a (w.c.stakedOf a + n))
      omega
    · simp only [Ledger.move_total hl]; exact hi.supply
  | payout a n l _ ha hn hsa ht hd hl hh =>
    refine ⟨⟨(total_save _ _ _).trans ?_, ?_, AMap.WF_set hi.wf _ _⟩, rfl⟩
    · have e := sum_set (x := w.c.stakedOf a - n) hi.sum a
      show _ = Verif.total (w.c.staked.cur.set a (w.c.stakedOf a - n))
      omega
    · simp only [Ledger.move_total hl]; exact hi.supply
  | unbond a n d _ ha hn hsa ht hd hlen hh =>
    refine ⟨⟨(total_save _ _ _).trans ?_, hi.supply, AMap.WF_set hi.wf _ _⟩, rfl⟩
    have e := sum_set (x := w.c.stakedOf a - n) hi.sum a
    show _ = Verif.total (w.c.staked.cur.set a (w.c.stakedOf a - n))
    omega
  | claim a n c l ha hc hn hl =>
    exact ⟨⟨hi.sum, by simp only [Ledger.move_total hl]; exact hi.supply, hi.wf⟩, rfl⟩
  | admin m c hsm hm =>
    refine ⟨⟨?_, hi.supply, by simp only [hsm.staked]; exact hi.wf⟩, rfl⟩
    simp only [State.total, hsm.total, hsm.staked]; exact hi.sum
  | transfer a d n l ha hl =>
    exact ⟨⟨hi.sum, by simp only [Ledger.move_total hl]; exact hi.supply, hi.wf⟩, rfl⟩
  | mint d n l hsup hl =>
    exact ⟨⟨hi.sum, by simp only [Ledger.credit_total hl]; exact hsup, hi.wf⟩, rfl⟩
  | burn a n l ha hl =>
    refine ⟨⟨hi.sum, ?_, hi.wf⟩, rfl⟩
    have := Ledger.debit_total hl
    have := hi.supply
    simp only; omega

theorem inv_reach {w : World} {b : Block} {log : List (Ev World Block Call Out)}
    (h : sys.Reach w b log) : Inv w := by
  refine Sys.Reach.induct (P := fun w _ _ => Inv w) (fun b s hi => ?_) ?_ h
  · obtain ⟨h1, h2, h3, h4⟩ := init_shape hi
    refine ⟨?_, h4, by rw [h1]; exact AMap.WF_nil⟩
    unfold State.total; rw [h1, h2]; rfl
  · intro s b l env call out s' _ hi hb hs
    exact (inv_step hi hs).1

end Verif.TokenStaked
