import Verif.Spec.Cw20Voting
import Verif.Props.Cw20Stake
import Verif.Props.ActiveThreshold
/-!
# C30, C72, C73: dao-voting-cw20-staked
-/

namespace Verif.Cw20Voting
open Verif Verif.Active Verif.Spec.Cw20Voting

/-! ## Lemmas -/

theorem check_ok {supply : Nat} {t : Option ActiveThreshold} {u v : Unit} :
    checkPercentage t = .ok u ∧ checkCount supply t = .ok v ↔ Sensible t supply := by
  unfold Sensible
  cases t with
  | none => simp [checkPercentage, checkCount]
  | some x =>
    cases x with
    | absolute n =>
      simp only [checkPercentage, checkCount, bind_ok, require_ok, decide_eq_true_eq, exists_const, true_and]
      constructor
      · rintro ⟨h1, h2⟩; exact ⟨Nat.pos_of_ne_zero h1, h2⟩
      · rintro ⟨h1, h2⟩; exact ⟨Nat.pos_iff_ne_zero.1 h1, h2⟩
    | percentage p =>
      have : DEC_ONE = 10 ^ 18 := by unfold DEC_ONE; decide +kernel
      simp only [checkPercentage, checkCount, require_ok, decide_eq_true_eq, and_true, this]
      exact and_comm

theorem sensible_mono {t : Option ActiveThreshold} {n m : Nat} (h : Sensible t n) (hle : n ≤ m) : Sensible t m := by
  unfold Sensible at *
  cases t with
  | none => trivial
  | some x => cases x with
    | absolute k => exact ⟨h.1, by have := h.2; omega⟩
    | percentage p => exact h

theorem overStaking_inv {dao token : Addr} {t : Option ActiveThreshold} {s : Cw20Stake.World} {w : World}
    (h : createOverStaking dao token t s = .ok w) :
    Sensible t (total s.ledger) ∧ token = s.c.config.token ∧ w = ⟨⟨dao, token, s.self, t⟩, s⟩ := by
  simp only [createOverStaking, bind_ok, require_ok, decide_eq_true_eq, Except.ok.injEq] at h
  obtain ⟨_, h1, _, h2, _, h3, rfl⟩ := h
  exact ⟨check_ok.1 ⟨h1, h2⟩, h3, rfl⟩

theorem withNewStaking_inv {b : Block} {dao token staking : Addr} {t : Option ActiveThreshold}
    {d : Option Duration} {l : Ledger Addr} {w : World}
    (h : withNewStaking b dao token staking t d l = .ok w) :
    ∃ c, Cw20Stake.instantiate b (some dao) token d = .ok c ∧ w = ⟨⟨dao, token, staking, t⟩, ⟨c, staking, l⟩⟩ := by
  simp only [withNewStaking, bind_ok, Except.ok.injEq] at h
  obtain ⟨c, hc, rfl⟩ := h
  exact ⟨c, hc, rfl⟩

theorem overToken_inv {b : Block} {dao token staking : Addr} {t : Option ActiveThreshold}
    {d : Option Duration} {l : Ledger Addr} {w : World}
    (h : createOverToken b dao token staking t d l = .ok w) :
    Sensible t (total l) ∧ ∃ c, Cw20Stake.instantiate b (some dao) token d = .ok c ∧
      w = ⟨⟨dao, token, staking, t⟩, ⟨c, staking, l⟩⟩ := by
  simp only [createOverToken, bind_ok] at h
  obtain ⟨_, h1, _, h2, h3⟩ := h
  exact ⟨check_ok.1 ⟨h1, h2⟩, withNewStaking_inv h3⟩

theorem sumBalances_ok {l : List (Addr × Nat)} {p n : Nat} (h : sumBalances l p = .ok n) :
    n = p + (l.map (·.2)).sum := by
  induction l generalizing p with
  | nil => simp only [sumBalances, Except.ok.injEq] at h; simp [h]
  | cons e l ih =>
    obtain ⟨a, k⟩ := e
    simp only [sumBalances, bind_ok, add128_ok] at h
    obtain ⟨q, ⟨_, rfl⟩, h⟩ := h
    rw [ih h]; simp; omega

theorem createAccounts_ok {bal : List (Addr × Nat)} {l l' : Ledger Addr} (h : createAccounts bal l = .ok l')
    (hl : total l < U128) :
    total l' = total l + (bal.map (·.2)).sum ∧ total l' < U128 ∧
      (∀ e ∈ bal, getD0 l' e.1 = e.2) ∧
      (∀ a, (∀ n, (a, n) ∉ bal) → AMap.get l' a = AMap.get l a) ∧ (bal.map (·.1)).Nodup ∧
      (∀ e ∈ bal, AMap.get l e.1 = none) := by
  induction bal generalizing l with
  | nil => simp only [createAccounts, Except.ok.injEq] at h; subst h; simp [hl]
  | cons e bal ih =>
    obtain ⟨a, n⟩ := e
    simp only [createAccounts, bind_ok, require_ok, decide_eq_true_eq] at h
    obtain ⟨_, hnone, _, hfit, h⟩ := h
    have ht : total (AMap.set l a n) = total l + n := by
      have := total_set l a n
      have h0 : getD0 l a = 0 := by unfold getD0; rw [hnone]; rfl
      omega
    obtain ⟨h1, h2, h3, h4, h5, h6⟩ := ih h (by rw [ht]; exact hfit)
    have hna : ∀ k, (a, k) ∉ bal := by
      intro k hk
      have := h6 _ hk
      simp [AMap.get_set] at this
    refine ⟨?_, h2, ?_, ?_, ?_, ?_⟩
    · rw [h1, ht]; simp; omega
    · intro e he
      rcases List.mem_cons.1 he with rfl | he
      · unfold getD0; rw [h4 a hna, AMap.get_set_self]; rfl
      · exact h3 e he
    · intro x hx
      rw [h4 x (fun k hk => hx k (List.mem_cons_of_mem _ hk)), AMap.get_set, if_neg]
      rintro rfl; exact hx n (List.mem_cons_self ..)
    · simp only [List.map_cons, List.nodup_cons]
      refine ⟨?_, h5⟩
      intro hm
      obtain ⟨e, he, hea⟩ := List.mem_map.1 hm
      obtain ⟨x, k⟩ := e
      simp only at hea; subst hea
      exact hna k he
    · intro e he
      rcases List.mem_cons.1 he with rfl | he
      · exact hnone
      · have := h6 e he
        rw [AMap.get_set] at this
        split at this
        · cases this
        · exact this

theorem createToken_inv {b : Block} {dao token staking : Addr} {t : Option ActiveThreshold}
    {bal : List (Addr × Nat)} {daoBal : Option Nat} {d : Option Duration} {w : World}
    (h : createToken b dao token staking t bal daoBal d = .ok w) :
    ∃ l c, createAccounts (withDaoBalance dao bal daoBal) [] = .ok l ∧ (bal.map (·.2)).sum ≠ 0 ∧
      Sensible t (total l) ∧ Cw20Stake.instantiate b (some dao) token d = .ok c ∧
      w = ⟨⟨dao, token, staking, t⟩, ⟨c, staking, l⟩⟩ := by
  simp only [createToken, bind_ok, require_ok, decide_eq_true_eq] at h
  obtain ⟨_, h1, n, h2, _, h3, l, h4, _, h5, h6⟩ := h
  obtain ⟨c, hc, hw⟩ := withNewStaking_inv h6
  have := sumBalances_ok h2
  exact ⟨l, c, h4, by omega, check_ok.1 ⟨h1, h5⟩, hc, hw⟩

theorem total_nil : total ([] : Ledger Addr) < U128 := by
  have : total ([] : Ledger Addr) = 0 := rfl
  rw [this]; unfold U128; exact Nat.two_pow_pos _

/-- What holds of a new module. -/
theorem created {b : Block} {w : World} (h : Created b w) :
    (∃ b0 l0, Cw20Stake.sys.Reach w.s b0 l0 ∧ b0.le b) ∧ w.s.c.config.token = w.v.token ∧
      w.s.self = w.v.staking ∧ Sensible w.v.threshold w.supply := by
  have inst : ∀ {dao token : Addr} {d : Option Duration} {c : Cw20Stake.State},
      Cw20Stake.instantiate b (some dao) token d = .ok c → c.config.token = token := by
    intro dao token d c hc
    simp only [Cw20Stake.instantiate, bind_ok, Except.ok.injEq] at hc
    obtain ⟨_, _, rfl⟩ := hc; rfl
  cases h with
  | overStaking hs hb hc =>
    obtain ⟨h1, h2, rfl⟩ := overStaking_inv hc
    exact ⟨⟨_, _, hs, hb⟩, h2.symm, rfl, h1⟩
  | overToken hl hne hc =>
    obtain ⟨h1, c, hi, rfl⟩ := overToken_inv hc
    exact ⟨⟨b, [], ⟨b, _, ⟨_, _, _, hi, hl, hne⟩, .refl⟩, Block.le_refl _⟩, inst hi, rfl, h1⟩
  | newToken hne hc =>
    obtain ⟨l, c, h1, _, h3, hi, rfl⟩ := createToken_inv hc
    exact ⟨⟨b, [], ⟨b, _, ⟨_, _, _, hi, (createAccounts_ok h1 total_nil).2.1, hne⟩, .refl⟩, Block.le_refl _⟩,
      inst hi, rfl, h3⟩

theorem update_inv {w w' : World} {a : Addr} {t : Option ActiveThreshold} :
    updateThreshold w a t = .ok w' ↔ a = w.v.dao ∧ Sensible t w.supply ∧
      w' = { w with v := { w.v with threshold := t } } := by
  simp only [updateThreshold, bind_ok, require_ok, decide_eq_true_eq, Except.ok.injEq]
  constructor
  · rintro ⟨_, h1, _, h2, _, h3, rfl⟩; exact ⟨h1, check_ok.1 ⟨h2, h3⟩, rfl⟩
  · rintro ⟨h1, h2, rfl⟩
    have := (check_ok (u := ()) (v := ())).2 h2
    exact ⟨(), h1, (), this.1, (), this.2, rfl⟩

theorem step_inv {w w' : World} {b : Block} {call : Call} {out : Out} (h : step w b call = .ok (w', out)) :
    (∃ c, call = .stake c ∧ Cw20Stake.step w.s b c = .ok (w'.s, out) ∧ w'.v = w.v) ∨
    (∃ a t, call = .update a t ∧ a = w.v.dao ∧ Sensible t w.supply ∧
      w' = { w with v := { w.v with threshold := t } } ∧ out = {}) := by
  cases call with
  | stake c =>
    simp only [step, bind_ok, Except.ok.injEq, Prod.mk.injEq] at h
    obtain ⟨⟨s, o⟩, h1, rfl, rfl⟩ := h
    exact Or.inl ⟨c, rfl, h1, rfl⟩
  | update a t =>
    simp only [step, bind_ok, Except.ok.injEq, Prod.mk.injEq] at h
    obtain ⟨w1, h1, rfl, rfl⟩ := h
    obtain ⟨h1, h2, h3⟩ := update_inv.1 h1
    exact Or.inr ⟨a, t, rfl, h1, h2, h3, rfl⟩

/-- The staking contract inside runs as it does alone. -/
theorem run_stake {w w' : World} {b b' b0 : Block} {log : List (Ev World Block Call Out)}
    {l0 : List (Ev Cw20Stake.World Block Cw20Stake.Call Cw20Stake.Out)}
    (h : Cw20Stake.sys.Reach w.s b0 l0) (hb : b0.le b) (hr : sys.Run w b log w' b') :
    ∃ b1 l1, Cw20Stake.sys.Reach w'.s b1 l1 ∧ b1.le b' := by
  induction hr with
  | refl => exact ⟨b0, l0, h, hb⟩
  | step hr hle hs ih =>
    obtain ⟨b1, l1, h1, hb1⟩ := ih
    rcases step_inv hs with ⟨c, rfl, hc, _⟩ | ⟨a, t, rfl, _, _, rfl, _⟩
    · exact ⟨_, _, h1.step (M := Cw20Stake.sys) (Block.le_trans hb1 hle) hc, Block.le_refl _⟩
    · exact ⟨b1, l1, h1, Block.le_trans hb1 hle⟩

theorem reach_stake {w : World} {b : Block} {log : List (Ev World Block Call Out)} (h : sys.Reach w b log) :
    ∃ b1 l1, Cw20Stake.sys.Reach w.s b1 l1 ∧ b1.le b := by
  obtain ⟨b0, w0, hi, hr⟩ := h
  obtain ⟨⟨b1, l1, h1, hb1⟩, _⟩ := created hi
  exact run_stake h1 hb1 hr

theorem snapshotted : sys.Snapshotted (fun w => w.s.c.staked) ∧ sys.Snapshotted (fun w => w.s.c.stakedTotal) := by
  refine ⟨⟨?_, ?_⟩, ⟨?_, ?_⟩⟩
  · intro b w h
    obtain ⟨⟨b1, l1, h1, hb1⟩, _⟩ := created h
    exact Snap.upTo_mono (Cw20Stake.snapshotted.1.upTo h1) hb1.1
  · intro w b call w' out h
    rcases step_inv h with ⟨c, rfl, hc, _⟩ | ⟨a, t, rfl, _, _, rfl, _⟩
    · exact Cw20Stake.snapshotted.1.step _ _ _ _ _ hc
    · exact .refl
  · intro b w h
    obtain ⟨⟨b1, l1, h1, hb1⟩, _⟩ := created h
    exact Snap.upTo_mono (Cw20Stake.snapshotted.2.upTo h1) hb1.1
  · intro w b call w' out h
    rcases step_inv h with ⟨c, rfl, hc, _⟩ | ⟨a, t, rfl, _, _, rfl, _⟩
    · exact Cw20Stake.snapshotted.2.step _ _ _ _ _ hc
    · exact .refl

/-! ## C30 and C72: the powers -/

/-- **C30, C72.** The powers and the total the module reports for a height are the amounts staked after the
last call below that height, whatever is called from then on and whenever it is asked. -/
theorem C30_cw20_voting_history {w w' : World} {b b' : Block} {log log' : List (Ev World Block Call Out)}
    (h : sys.Reach w b log) (hr : sys.Run w b log' w' b') {x : Nat} (hb : b.height < x)
    (hx : ∀ e ∈ log', x ≤ e.env.height) (a : Addr) (now : Block) :
    power w' now a (some x) = (w.s.c.stakedOf a, x) ∧ totalPower w' now (some x) = (w.s.c.total, x) := by
  simp only [power, totalPower, Option.getD_some, Cw20Stake.stakedAt, Cw20Stake.totalStakedAt]
  rw [snapshotted.1.current h hr hb hx a, snapshotted.2.current h hr hb hx ()]
  exact ⟨rfl, rfl⟩

/-- **C30, C72.** What is reported for a height does not change through calls at or above that height. -/
theorem C30_cw20_voting_stable {w w' : World} {b b' : Block} {log log' : List (Ev World Block Call Out)}
    (h : sys.Reach w b log) (hr : sys.Run w b log' w' b') {x : Nat}
    (hx : ∀ e ∈ log', x ≤ e.env.height) (a : Addr) (now now' : Block) :
    power w' now' a (some x) = power w now a (some x) ∧
      totalPower w' now' (some x) = totalPower w now (some x) := by
  simp only [power, totalPower, Option.getD_some, Cw20Stake.stakedAt, Cw20Stake.totalStakedAt]
  rw [snapshotted.1.stable h hr hx a, snapshotted.2.stable h hr hx ()]
  exact ⟨rfl, rfl⟩

/-- **C72.** At every height, and without one, the total power is the sum of the powers: over any list of
addresses without repetition that has everybody with power. -/
theorem C72_total {w : World} {b now : Block} {log : List (Ev World Block Call Out)}
    (h : sys.Reach w b log) (x : Option Nat) {L : List Addr} (hL : L.Nodup)
    (hc : ∀ a, a ∉ L → (power w now a x).1 = 0) :
    (totalPower w now x).1 = (L.map (fun a => (power w now a x).1)).sum := by
  obtain ⟨b1, l1, h1, _⟩ := reach_stake h
  exact Cw20Stake.C26_total_at_height h1 _ hL hc

/-- **C72.** The staking contract stakes the token the module names, in every state; and the module's DAO,
token and staking contract never change. -/
theorem C72_token {w w' : World} {b b' : Block} {log log' : List (Ev World Block Call Out)}
    (h : sys.Reach w b log) (hr : sys.Run w b log' w' b') :
    w'.s.c.config.token = w'.v.token ∧ w'.s.self = w'.v.staking ∧
      w'.v.dao = w.v.dao ∧ w'.v.token = w.v.token ∧ w'.v.staking = w.v.staking := by
  have key : ∀ {w0 w1 : World} {b0 b1 : Block} {l : List (Ev World Block Call Out)},
      (∃ b2 l2, Cw20Stake.sys.Reach w0.s b2 l2 ∧ b2.le b0) →
      w0.s.c.config.token = w0.v.token ∧ w0.s.self = w0.v.staking → sys.Run w0 b0 l w1 b1 →
      (w1.s.c.config.token = w1.v.token ∧ w1.s.self = w1.v.staking) ∧
      w1.v.dao = w0.v.dao ∧ w1.v.token = w0.v.token ∧ w1.v.staking = w0.v.staking := by
    intro w0 w1 b0 b1 l hs h0 hr
    obtain ⟨b2, l2, hs2, hb2⟩ := hs
    induction hr with
    | refl => exact ⟨h0, rfl, rfl, rfl⟩
    | step hr hle hst ih =>
      obtain ⟨⟨e1, e2⟩, e3, e4, e5⟩ := ih
      rcases step_inv hst with ⟨c, rfl, hc, hv⟩ | ⟨a, t, rfl, _, _, rfl, _⟩
      · obtain ⟨b3, l3, h3, hb3⟩ := run_stake hs2 hb2 hr
        have i1 := (Cw20Stake.C29_config hc).1
        have i2 := (Cw20Stake.inv_step (Cw20Stake.inv_reach h3) (Block.le_trans hb3 hle).1 hc).2
        rw [hv, i1, i2]
        exact ⟨⟨e1, e2⟩, e3, e4, e5⟩
      · exact ⟨⟨e1, e2⟩, e3, e4, e5⟩
  obtain ⟨b0, w0, hi, hr0⟩ := h
  obtain ⟨hs, h1, h2, _⟩ := created hi
  have k0 := key hs ⟨h1, h2⟩ hr0
  obtain ⟨b2, l2, hs2, hb2⟩ := hs
  have k1 := key (run_stake hs2 hb2 hr0) k0.1 hr
  exact ⟨k1.1.1, k1.1.2, k1.2⟩

/-- **C72.** A new token is held exactly as listed: every listed address has its amount and the DAO what was
set aside for it, nobody else has anything, and some amount went to the listed addresses. A new staking
contract belongs to the DAO and starts empty. -/
theorem C72_new_token {b : Block} {dao token staking : Addr} {t : Option ActiveThreshold}
    {bal : List (Addr × Nat)} {daoBal : Option Nat} {d : Option Duration} {w : World}
    (h : createToken b dao token staking t bal daoBal d = .ok w) :
    (∀ a n, (a, n) ∈ bal → getD0 w.s.ledger a = n) ∧
    (∀ n, daoBal = some n → 0 < n → getD0 w.s.ledger dao = n) ∧
    w.supply = (bal.map (·.2)).sum + daoBal.getD 0 ∧ 0 < (bal.map (·.2)).sum ∧
    w.s.c.ownership.owner = some dao ∧ w.s.c.total = 0 ∧ w.s.c.balance = 0 ∧ w.v.dao = dao := by
  obtain ⟨l, c, h1, h2, _, hi, rfl⟩ := createToken_inv h
  obtain ⟨e1, _, e3, _, _, _⟩ := createAccounts_ok h1 total_nil
  simp only [Cw20Stake.instantiate, bind_ok, Except.ok.injEq] at hi
  obtain ⟨_, _, rfl⟩ := hi
  have hz : total ([] : Ledger Addr) = 0 := rfl
  rw [hz, Nat.zero_add] at e1
  refine ⟨?_, ?_, ?_, Nat.pos_of_ne_zero h2, rfl, ?_, rfl, rfl⟩
  · intro a n hm
    refine e3 (a, n) ?_
    cases daoBal with
    | none => exact hm
    | some k =>
      simp only [withDaoBalance]
      split
      · exact List.mem_append_left _ hm
      · exact hm
  · rintro n rfl hn
    exact e3 (dao, n) (by simp [withDaoBalance, hn])
  · simp only [World.supply, e1]
    cases daoBal with
    | none => simp [withDaoBalance]
    | some k =>
      simp only [withDaoBalance, Option.getD_some]
      split
      · simp
      · have : k = 0 := by omega
        subst this; simp
  · simp [Cw20Stake.State.total, Snap.get_save]

theorem createAccounts_of {bal : List (Addr × Nat)} {l : Ledger Addr} (hn : (bal.map (·.1)).Nodup)
    (hl : ∀ e ∈ bal, AMap.get l e.1 = none) (ht : total l + (bal.map (·.2)).sum < U128) :
    ∃ l', createAccounts bal l = .ok l' := by
  induction bal generalizing l with
  | nil => exact ⟨l, rfl⟩
  | cons e bal ih =>
    obtain ⟨a, n⟩ := e
    simp only [List.map_cons, List.nodup_cons, List.sum_cons] at hn ht
    have h0 : AMap.get l a = none := hl (a, n) (List.mem_cons_self ..)
    have hset : total (AMap.set l a n) = total l + n := by
      have := total_set l a n
      have h0 : getD0 l a = 0 := by unfold getD0; rw [h0]; rfl
      omega
    obtain ⟨l', h⟩ := ih (l := AMap.set l a n) hn.2 (fun e he => by
      rw [AMap.get_set, if_neg]
      · exact hl e (List.mem_cons_of_mem _ he)
      · rintro rfl
        exact hn.1 (List.mem_map_of_mem he)) (by rw [hset]; omega)
    refine ⟨l', ?_⟩
    simp only [createAccounts, bind_ok, require_ok, decide_eq_true_eq]
    exact ⟨(), h0, (), by omega, h⟩

theorem sumBalances_of {l : List (Addr × Nat)} {p : Nat} (h : p + (l.map (·.2)).sum < U128) :
    sumBalances l p = .ok (p + (l.map (·.2)).sum) := by
  induction l generalizing p with
  | nil => simp [sumBalances]
  | cons e l ih =>
    obtain ⟨a, k⟩ := e
    simp only [List.map_cons, List.sum_cons] at h ⊢
    have h1 : add128 p k = .ok (p + k) := (add128_ok _ _ _).2 ⟨by omega, rfl⟩
    simp only [sumBalances]
    rw [h1, ok_bind, ih (by omega)]
    rw [Nat.add_assoc]

theorem instantiate_iff {b : Block} {o : Option Addr} {token : Addr} {d : Option Duration} :
    (∃ c, Cw20Stake.instantiate b o token d = .ok c) ↔ d ≠ some (.height 0) ∧ d ≠ some (.time 0) := by
  simp only [Cw20Stake.instantiate, bind_ok, Except.ok.injEq]
  rcases d with _ | n | n
  · simp [Cw20Stake.validateDuration]
  · simp [Cw20Stake.validateDuration]
  · simp [Cw20Stake.validateDuration]

/-- **C72.** With a new token, instantiation succeeds exactly if the listed amounts are not all zero, no address is listed
twice, the DAO is not listed when an amount is set aside for it, the supply fits 128 bits, the threshold makes sense for
that supply and the unstaking duration, if any, is not zero. -/
theorem C72_new_iff (b : Block) (dao token staking : Addr) (t : Option ActiveThreshold) (bal : List (Addr × Nat))
    (daoBal : Option Nat) (d : Option Duration) :
    (∃ w, createToken b dao token staking t bal daoBal d = .ok w) ↔
      (bal.map (·.2)).sum ≠ 0 ∧ (bal.map (·.1)).Nodup ∧ (0 < daoBal.getD 0 → dao ∉ bal.map (·.1)) ∧
      (bal.map (·.2)).sum + daoBal.getD 0 < U128 ∧ Sensible t ((bal.map (·.2)).sum + daoBal.getD 0) ∧
      d ≠ some (.height 0) ∧ d ≠ some (.time 0) := by
  have hsum : ((withDaoBalance dao bal daoBal).map (·.2)).sum = (bal.map (·.2)).sum + daoBal.getD 0 := by
    cases daoBal with
    | none => simp [withDaoBalance]
    | some k =>
      simp only [withDaoBalance, Option.getD_some]
      split
      · simp
      · omega
  have hnd : ((withDaoBalance dao bal daoBal).map (·.1)).Nodup ↔
      (bal.map (·.1)).Nodup ∧ (0 < daoBal.getD 0 → dao ∉ bal.map (·.1)) := by
    cases daoBal with
    | none => simp [withDaoBalance]
    | some k =>
      simp only [withDaoBalance, Option.getD_some]
      split
      · rename_i hk
        rw [List.map_append, List.map_cons, List.map_nil, List.nodup_append]
        constructor
        · rintro ⟨h1, _, h3⟩
          exact ⟨h1, fun _ hm => h3 _ hm _ (List.mem_singleton.2 rfl) rfl⟩
        · rintro ⟨h1, h2⟩
          refine ⟨h1, by simp, ?_⟩
          intro x hx y hy e
          have e' : x = dao := e.trans (List.mem_singleton.1 hy)
          exact h2 hk (e' ▸ hx)
      · rename_i hk
        exact ⟨fun h => ⟨h, fun h' => absurd h' hk⟩, fun h => h.1⟩
  constructor
  · rintro ⟨w, h⟩
    obtain ⟨l, c, h1, h2, h3, h4, _⟩ := createToken_inv h
    obtain ⟨e1, e2, _, _, e5, _⟩ := createAccounts_ok h1 total_nil
    have hz : total ([] : Ledger Addr) = 0 := rfl
    rw [hz, Nat.zero_add, hsum] at e1
    rw [e1] at h3 e2
    exact ⟨h2, (hnd.1 e5).1, (hnd.1 e5).2, e2, h3, instantiate_iff.1 ⟨c, h4⟩⟩
  · rintro ⟨h1, h2, h3, h4, h5, h6⟩
    have hz : total ([] : Ledger Addr) = 0 := rfl
    obtain ⟨l, hl⟩ := createAccounts_of (l := []) (hnd.2 ⟨h2, h3⟩) (fun _ _ => rfl) (by rw [hz, Nat.zero_add, hsum]; exact h4)
    have e1 := (createAccounts_ok hl total_nil).1
    rw [hz, Nat.zero_add, hsum] at e1
    obtain ⟨c, hc⟩ := (instantiate_iff (b := b) (o := some dao) (token := token)).2 h6
    have hch := (check_ok (u := ()) (v := ())).2 h5
    refine ⟨⟨⟨dao, token, staking, t⟩, ⟨c, staking, l⟩⟩, ?_⟩
    have hs := sumBalances_of (l := bal) (p := 0) (by omega)
    rw [Nat.zero_add] at hs
    simp only [createToken, withNewStaking, hch.1, hs, hl, e1, hch.2, hc, ok_bind, require, h1, ne_eq, not_false_eq_true,
      decide_true, if_true]

/-- **C72.** Over an existing token or an existing staking contract, instantiation succeeds exactly if the threshold makes
sense for the supply, the new staking contract's duration is not zero, and the existing one stakes the named token. -/
theorem C72_over_iff (b : Block) (dao token staking : Addr) (t : Option ActiveThreshold) (d : Option Duration)
    (l : Ledger Addr) (s : Cw20Stake.World) :
    ((∃ w, createOverToken b dao token staking t d l = .ok w) ↔
      Sensible t (total l) ∧ d ≠ some (.height 0) ∧ d ≠ some (.time 0)) ∧
    ((∃ w, createOverStaking dao token t s = .ok w) ↔ Sensible t (total s.ledger) ∧ token = s.c.config.token) := by
  refine ⟨⟨?_, ?_⟩, ⟨?_, ?_⟩⟩
  · rintro ⟨w, h⟩
    obtain ⟨h1, c, h2, _⟩ := overToken_inv h
    exact ⟨h1, instantiate_iff.1 ⟨c, h2⟩⟩
  · rintro ⟨h1, h2⟩
    obtain ⟨c, hc⟩ := (instantiate_iff (b := b) (o := some dao) (token := token)).2 h2
    have hch := (check_ok (u := ()) (v := ())).2 h1
    exact ⟨_, by simp only [createOverToken, withNewStaking, hch.1, hch.2, hc, ok_bind]; rfl⟩
  · rintro ⟨w, h⟩
    obtain ⟨h1, h2, _⟩ := overStaking_inv h
    exact ⟨h1, h2⟩
  · rintro ⟨h1, h2⟩
    have hch := (check_ok (u := ()) (v := ())).2 h1
    refine ⟨⟨⟨dao, token, s.self, t⟩, s⟩, ?_⟩
    simp only [createOverStaking, bind_ok, require_ok, decide_eq_true_eq]
    exact ⟨(), hch.1, (), hch.2, (), h2, trivial⟩

/-- **C72.** Over an existing token the staking contract is the DAO's too; over an existing staking contract
nothing there changes, and its token must be the one named. -/
theorem C72_created {b : Block} {dao token staking : Addr} {t : Option ActiveThreshold}
    {d : Option Duration} {l : Ledger Addr} {s : Cw20Stake.World} {w w' : World}
    (h : createOverToken b dao token staking t d l = .ok w) (h' : createOverStaking dao token t s = .ok w') :
    w.s.c.ownership.owner = some dao ∧ w.s.c.config.token = token ∧ w.s.ledger = l ∧
    w'.s = s ∧ s.c.config.token = token ∧ w'.v.staking = s.self := by
  obtain ⟨_, c, hi, rfl⟩ := overToken_inv h
  obtain ⟨_, h2, rfl⟩ := overStaking_inv h'
  simp only [Cw20Stake.instantiate, bind_ok, Except.ok.injEq] at hi
  obtain ⟨_, _, rfl⟩ := hi
  exact ⟨rfl, rfl, rfl, rfl, h2.symm, rfl⟩

/-! ## C72: the threshold -/

/-- **C72.** The threshold can be set by the DAO alone, and only to one that makes sense for the supply at
that time (or to none). -/
theorem C72_update_iff (w : World) (b : Block) (a : Addr) (t : Option ActiveThreshold) :
    (∃ w' out, step w b (.update a t) = .ok (w', out)) ↔ a = w.v.dao ∧ Sensible t w.supply := by
  constructor
  · rintro ⟨w', out, h⟩
    rcases step_inv h with ⟨c, hc, _⟩ | ⟨a', t', hc, h1, h2, _⟩
    · cases hc
    · cases hc; exact ⟨h1, h2⟩
  · rintro ⟨h1, h2⟩
    exact ⟨_, _, by simp only [step, update_inv.2 ⟨h1, h2, rfl⟩, ok_bind]; rfl⟩

/-- **C72.** Nothing else changes the threshold, and the update sets exactly what was asked. -/
theorem C72_update_only {w w' : World} {b : Block} {call : Call} {out : Out}
    (h : step w b call = .ok (w', out)) :
    w'.v.threshold = w.v.threshold ∨
      ∃ t, call = .update w.v.dao t ∧ w'.v.threshold = t ∧ Sensible t w.supply ∧ w'.s = w.s := by
  rcases step_inv h with ⟨c, rfl, hc, hv⟩ | ⟨a, t, rfl, rfl, h2, rfl, _⟩
  · exact Or.inl (by rw [hv])
  · exact Or.inr ⟨t, rfl, rfl, h2, rfl⟩

/-- **C72.** In every history the threshold made sense for the supply when it was set: at creation, if it was
never updated, and otherwise in the last update, which was a call of the DAO asking for it. -/
theorem C72_threshold {w0 w : World} {b0 b : Block} {log : List (Ev World Block Call Out)}
    (h0 : Created b0 w0) (hr : sys.Run w0 b0 log w b) :
    ∃ supply, Sensible w.v.threshold supply ∧
      ((w0.v.threshold = w.v.threshold ∧ supply = w0.supply ∧ ∀ e ∈ log, ∀ a t, e.call ≠ .update a t) ∨
       ∃ l2 e l1, log = l2 ++ e :: l1 ∧ e.call = .update w.v.dao w.v.threshold ∧ supply = e.pre.supply ∧
        ∀ e' ∈ l2, ∀ a t, e'.call ≠ .update a t) := by
  induction hr with
  | refl => exact ⟨_, (created h0).2.2.2, Or.inl ⟨rfl, rfl, by simp⟩⟩
  | step hr hle hs ih =>
    obtain ⟨n, h1, h2⟩ := ih
    rcases step_inv hs with ⟨c, rfl, hc, hv⟩ | ⟨a, t, rfl, rfl, h3, rfl, _⟩
    · rw [hv]
      refine ⟨n, h1, ?_⟩
      rcases h2 with ⟨h2, h3, h4⟩ | ⟨l2, e, l1, rfl, h2, h3, h4⟩
      · refine Or.inl ⟨h2, h3, ?_⟩
        intro e he
        rcases List.mem_cons.1 he with rfl | he
        · intro a t hh; cases hh
        · exact h4 e he
      · refine Or.inr ⟨_ :: l2, e, l1, rfl, h2, h3, ?_⟩
        intro e he
        rcases List.mem_cons.1 he with rfl | he
        · intro a t hh; cases hh
        · exact h4 e he
    · exact ⟨_, h3, Or.inr ⟨[], _, _, rfl, rfl, rfl, by simp⟩⟩

theorem sensible {w : World} {b : Block} {log : List (Ev World Block Call Out)} (h : sys.Reach w b log) :
    ∃ n, Sensible w.v.threshold n := by
  obtain ⟨b0, w0, h0, hr⟩ := h
  obtain ⟨n, hn, _⟩ := C72_threshold h0 hr
  exact ⟨n, hn⟩

/-- **C72.** In every reachable state `IsActive` answers, and says yes exactly when there is no threshold, or
the total power at the current height reaches the count, or reaches the percentage of the supply up to the
precision of 1e-9 of a token. -/
theorem C72_active {w : World} {b : Block} {log : List (Ev World Block Call Out)}
    (h : sys.Reach w b log) (now : Block) :
    ∃ r, active w now = .ok r ∧
      (r = true ↔ match w.v.threshold with
        | none => True
        | some (.absolute n) => n ≤ (totalPower w now none).1
        | some (.percentage p) => fraction p * w.supply < (totalPower w now none).1 + 1 / 10 ^ 9) := by
  obtain ⟨b1, l1, h1, _⟩ := reach_stake h
  have hs := (Cw20Stake.inv_reach h1).supply
  obtain ⟨n, hn⟩ := sensible h
  unfold active
  cases ht : w.v.threshold with
  | none => exact ⟨true, rfl, by simp⟩
  | some x =>
    cases x with
    | absolute n => exact ⟨_, rfl, by simp⟩
    | percentage p =>
      rw [ht] at hn
      have hd : DEC_ONE = 10 ^ 18 := by unfold DEC_ONE; decide +kernel
      refine C32_percentage (supply := w.supply) hs ?_
      simp only [assertValidPercentage, require_ok, decide_eq_true_eq, hd]
      exact ⟨Nat.pos_iff_ne_zero.1 hn.1, hn.2⟩

/-! ## C73: all tokens in the pool -/

/-- The staking contract alone keeps one token per share as long as nobody funds it. -/
theorem par_step {w w' : Cw20Stake.World} {b : Block} {c : Cw20Stake.Call} {out : Cw20Stake.Out}
    (h : Cw20Stake.step w b c = .ok (w', out)) (hp : w.c.balance = w.c.total)
    (hf : ∀ a n, c ≠ .send a n .fund) : w'.c.balance = w'.c.total := by
  cases Cw20Stake.step_effect h with
  | stake a n k l ha hl hk hs =>
    show w.c.balance + n = Cw20Stake.State.total _
    rw [show Cw20Stake.State.total { w.c with
      staked := w.c.staked.save a (w.c.stakedOf a + k) b.height
      stakedTotal := w.c.stakedTotal.save () (w.c.total + k) b.height
      balance := w.c.balance + n } = w.c.total + k from Cw20Stake.total_save _ _ _]
    rcases Cw20Stake.stake_shares hk with ⟨_, rfl⟩ | ⟨h0, h1, rfl⟩
    · rw [hp]
    · rw [hp, Nat.mul_div_cancel_left _ (Nat.pos_of_ne_zero h0)]
  | fund a n => exact absurd rfl (hf a n)
  | payout a m n l _ ha hn ht hm hsa hb hd hl ho hh =>
    have e : (Cw20Stake.unstaked w.c b a m n).total = w.c.total - m := Cw20Stake.total_save _ _ _
    show w.c.balance - n = (Cw20Stake.unstaked w.c b a m n).total
    rw [e, hn, hp, Nat.mul_div_cancel _ (Nat.pos_of_ne_zero ht)]
  | unbond a m n d _ ha hn ht hm hsa hb hd hlen ho hh =>
    have e : (Cw20Stake.unstaked w.c b a m n).total = w.c.total - m := Cw20Stake.total_save _ _ _
    show w.c.balance - n = (Cw20Stake.unstaked w.c b a m n).total
    rw [e, hn, hp, Nat.mul_div_cancel _ (Nat.pos_of_ne_zero ht)]
  | admin a m c hsm hm => simp only [Cw20Stake.State.total, hsm.balance, hsm.total]; exact hp
  | claim => exact hp
  | transfer => exact hp
  | mint => exact hp
  | burn => exact hp

/-- **C73, partial.** If nobody ever funded the pool, and the whole supply of the token is in the pool, then
the DAO is active from the next block on, whatever percentage the threshold is and whatever count it is of at
most the supply. What is missing: with funding the claim is false, see the counterexample. -/
theorem C73_cw20_full_partial {w0 w : World} {b0 b now : Block} {log : List (Ev World Block Call Out)}
    (h0 : Created b0 w0) (hp : Cw20Stake.totalValue w0.s.c = w0.s.c.total) (hr : sys.Run w0 b0 log w b)
    (hf : NoFunding log) (hall : Cw20Stake.totalValue w.s.c = w.supply)
    (ht : ∀ n, w.v.threshold = some (.absolute n) → n ≤ w.supply) (hb : b.height < now.height) :
    active w now = .ok true := by
  have hpar : w.s.c.balance = w.s.c.total := by
    clear hall ht
    induction hr with
    | refl => exact hp
    | step hr hle hs ih =>
      have ih := ih (fun e he => hf e (List.mem_cons_of_mem _ he)) (Nat.lt_of_le_of_lt hle.1 hb)
      rcases step_inv hs with ⟨c, rfl, hc, hv⟩ | ⟨a, t, rfl, rfl, h2, rfl, _⟩
      · exact par_step hc ih (fun a n hcn => hf _ (List.mem_cons_self ..) a n (by rw [hcn]))
      · exact ih
  have hreach : sys.Reach w b log := ⟨b0, w0, h0, hr⟩
  have hpow : (totalPower w now none).1 = w.supply := by
    have := (C30_cw20_voting_history hreach .refl hb (by simp) 0 now).2
    simp only [totalPower, Option.getD_some, Prod.mk.injEq] at this
    simp only [totalPower, Option.getD_none, this.1, ← hpar]
    exact hall
  obtain ⟨b1, l1, h1, _⟩ := reach_stake hreach
  have hs : w.supply < U128 := (Cw20Stake.inv_reach h1).supply
  obtain ⟨n, hn⟩ := sensible hreach
  have hre := C32_reachable hs
  unfold active
  rw [hpow]
  cases htt : w.v.threshold with
  | none => rfl
  | some x =>
    rw [htt] at hn
    cases x with
    | absolute n =>
      refine hre.2 n ?_
      simp only [assertValidCount, bind_ok, require_ok, decide_eq_true_eq, exists_const]
      exact ⟨Nat.pos_iff_ne_zero.1 hn.1, ht n htt⟩
    | percentage p =>
      have hd : DEC_ONE = 10 ^ 18 := by unfold DEC_ONE; decide +kernel
      refine hre.1 p ?_
      simp only [assertValidPercentage, require_ok, decide_eq_true_eq, hd]
      exact ⟨Nat.pos_iff_ne_zero.1 hn.1, hn.2⟩

/-- Shares of somebody who signs nothing stay. -/
theorem silent_shares {w w' : Cw20Stake.World} {b : Block} {c : Cw20Stake.Call} {out : Cw20Stake.Out}
    (h : Cw20Stake.step w b c = .ok (w', out)) {a : Addr} (ha : a ≠ w.self)
    (hsig : Spec.Stake.signer c ≠ some a) : w'.c.stakedOf a = w.c.stakedOf a :=
  (Cw20Stake.effect_other (Cw20Stake.step_effect h) ha hsig).2.2

/-- **C73.** How far funding locks the DAO: if somebody holds a share and does nothing more, then whatever the
others do, the total power is at most the supply divided by the value of a share as it is now. -/
theorem C73_cw20_locked {w w' : World} {b b' : Block} {log log' : List (Ev World Block Call Out)}
    (h : sys.Reach w b log) {a : Addr} (ha : a ≠ w.v.staking) (h1 : 0 < w.s.c.stakedOf a)
    (hr : sys.Run w b log' w' b') (hq : Silent a log') :
    w'.s.c.total * Cw20Stake.totalValue w.s.c ≤ w'.supply * w.s.c.total := by
  have hself := (C72_token h (.refl)).2.1
  obtain ⟨b1, l1, hs1, hb1⟩ := reach_stake h
  have key : w'.s.c.stakedOf a = w.s.c.stakedOf a ∧ w'.s.self = w.s.self ∧
      w'.s.c.total * w.s.c.balance ≤ w'.s.c.balance * w.s.c.total := by
    induction hr with
    | refl => exact ⟨rfl, rfl, by rw [Nat.mul_comm]⟩
    | step hr hle hs ih =>
      rename_i x y bx lx env call out
      obtain ⟨e1, e2, e3⟩ := ih (fun e he => hq e (List.mem_cons_of_mem _ he))
      rcases step_inv hs with ⟨c, rfl, hc, hv⟩ | ⟨u, t, rfl, rfl, h2, rfl, _⟩
      · obtain ⟨b3, l3, h3, hb3⟩ := run_stake hs1 hb1 hr
        have hi := Cw20Stake.inv_reach h3
        have hself2 := (Cw20Stake.inv_step hi (Block.le_trans hb3 hle).1 hc).2
        have hsig : Spec.Stake.signer c ≠ some a := by
          have hqe := hq _ (List.mem_cons_self ..)
          intro hh
          cases c with
          | exec u m => simp only [Spec.Stake.signer, Option.some.injEq] at hh; subst hh; exact (hqe m 0 .stake 0).1 rfl
          | send u n r => simp only [Spec.Stake.signer, Option.some.injEq] at hh; subst hh; exact (hqe .claim n r 0).2.1 rfl
          | transfer u d n =>
            simp only [Spec.Stake.signer, Option.some.injEq] at hh; subst hh; exact (hqe .claim n .stake d).2.2.1 rfl
          | mint d n => cases hh
          | burn u n =>
            simp only [Spec.Stake.signer, Option.some.injEq] at hh; subst hh; exact (hqe .claim n .stake 0).2.2.2 rfl
        have e1' := silent_shares hc (by rw [e2, hself]; exact ha) hsig
        have hle0 := Cw20Stake.stakedOf_le hi a
        have h0 : x.s.c.total ≠ 0 := by omega
        have hpool := Cw20Stake.effect_pool (Cw20Stake.step_effect hc) hi.pool h0
        refine ⟨e1'.trans e1, hself2.trans e2, ?_⟩
        -- x.balance * y.total ≤ y.balance * x.total and x.total * B ≤ x.balance * T
        have hpos : 0 < x.s.c.total := Nat.pos_of_ne_zero h0
        refine Nat.le_of_mul_le_mul_left ?_ hpos
        calc x.s.c.total * (y.s.c.total * w.s.c.balance)
            = y.s.c.total * (x.s.c.total * w.s.c.balance) := by ring
          _ ≤ y.s.c.total * (x.s.c.balance * w.s.c.total) := Nat.mul_le_mul_left _ e3
          _ = (x.s.c.balance * y.s.c.total) * w.s.c.total := by ring
          _ ≤ (y.s.c.balance * x.s.c.total) * w.s.c.total := Nat.mul_le_mul_right _ hpool
          _ = x.s.c.total * (y.s.c.balance * w.s.c.total) := by ring
      · exact ⟨e1, e2, e3⟩
  obtain ⟨b3, l3, h3, _⟩ := run_stake hs1 hb1 hr
  have hi := Cw20Stake.inv_reach h3
  have hbal : w'.s.c.balance ≤ w'.supply := by
    have h4 := hi.covered
    have h5 : Spec.Stake.tokens w'.s w'.s.self ≤ total w'.s.ledger := getD0_le_total _ _
    unfold World.supply; omega
  exact Nat.le_trans key.2.2 (Nat.mul_le_mul_right _ hbal)

/-! ## A concrete history

DAO 1 makes token 8 with 1000 for address 2 and 1000 for address 3, staking contract 9, module active from
half of the supply. -/

def exCreate : Res World :=
  createToken ⟨1, 1⟩ 1 8 9 (some (.percentage 500000000000000000)) [(2, 1000), (3, 1000)] (some 500) none

def exW : World :=
  match exCreate with
  | .ok w => w
  | .error _ => ⟨⟨0, 0, 0, none⟩, Cw20Stake.exW⟩

theorem exCreated : Created ⟨1, 1⟩ exW :=
  .newToken (token := 8) (staking := 9) (dao := 1) (t := some (.percentage 500000000000000000))
    (bal := [(2, 1000), (3, 1000)]) (daoBal := some 500) (d := none) (by decide) (by decide +kernel)

/-- The module becomes active when half of the supply of 2500 is staked, one block later. -/
theorem C72_example : ∃ w b log, sys.Run exW ⟨1, 1⟩ log w b ∧ w.supply = 2500 ∧
    active w ⟨3, 3⟩ = .ok false ∧ active w ⟨4, 4⟩ = .ok true ∧ power w ⟨4, 4⟩ 2 none = (1000, 4) ∧
    power w ⟨4, 4⟩ 3 (some 3) = (0, 3) ∧ totalPower w ⟨4, 4⟩ none = (1250, 4) ∧ NoFunding log := by
  obtain ⟨w, b, log, hr, hp⟩ := Sys.check_run (M := sys) (s := exW) (b := ⟨1, 1⟩)
    (cs := [(⟨2, 2⟩, .stake (.send 2 1000 .stake)), (⟨3, 3⟩, .stake (.send 3 250 .stake))])
    (p := fun w _ log => decide (w.supply = 2500 ∧
      active w ⟨3, 3⟩ = .ok false ∧ active w ⟨4, 4⟩ = .ok true ∧ power w ⟨4, 4⟩ 2 none = (1000, 4) ∧
      power w ⟨4, 4⟩ 3 (some 3) = (0, 3) ∧ totalPower w ⟨4, 4⟩ none = (1250, 4) ∧
      log.map (fun e => e.call) = [.stake (.send 3 250 .stake), .stake (.send 2 1000 .stake)]))
    (by decide +kernel)
  have hd := of_decide_eq_true hp
  obtain ⟨h1, h2, h3, h4, h5, h6, h7⟩ := hd
  refine ⟨w, b, log, hr, h1, h2, h3, h4, h5, h6, ?_⟩
  intro e he a n hc
  have hm : e.call ∈ log.map (fun e => e.call) := List.mem_map_of_mem he
  rw [h7, hc] at hm
  simp at hm

/-- The DAO lowers the threshold; nobody else may, and not to a count above the supply. -/
theorem C72_update_example :
    (∃ w' out, step exW ⟨2, 2⟩ (.update 1 (some (.absolute 2500))) = .ok (w', out)) ∧
    (¬ ∃ w' out, step exW ⟨2, 2⟩ (.update 1 (some (.absolute 2501))) = .ok (w', out)) ∧
    (¬ ∃ w' out, step exW ⟨2, 2⟩ (.update 2 none) = .ok (w', out)) := by
  refine ⟨(C72_update_iff ..).2 ⟨by decide +kernel, ?_⟩, fun h => ?_, fun h => ?_⟩
  · have : exW.supply = 2500 := by decide +kernel
    rw [this]; exact ⟨by decide, by decide⟩
  · have h2 := ((C72_update_iff ..).1 h).2
    have : exW.supply = 2500 := by decide +kernel
    rw [this] at h2; exact absurd h2.2 (by decide)
  · exact absurd ((C72_update_iff ..).1 h).1 (by decide +kernel)

/-- **C73, counterexample.** Address 2 stakes 1 and funds 9. Then everybody stakes all they have. The whole
supply of 2500 is in the pool, there are no claims, and the DAO, that needs half of the supply, is not active:
the total power is 250. As long as address 2 does nothing, no history makes the total power more than a tenth
of the supply. -/
theorem C73_cw20_witness : ∃ w b log, sys.Reach w b log ∧
    w.v.threshold = some (.percentage 500000000000000000) ∧
    Cw20Stake.totalValue w.s.c = w.supply ∧ w.s.c.claims = [] ∧
    (∀ now : Block, b.height < now.height → active w now = .ok false) ∧
    (∀ w' b' log', sys.Run w b log' w' b' → Silent 2 log' → w'.s.c.total * 10 ≤ w'.supply) := by
  obtain ⟨w, b, log, hr, hp⟩ := Sys.check_run (M := sys) (s := exW) (b := ⟨1, 1⟩)
    (cs := [(⟨2, 2⟩, .stake (.send 2 1 .stake)), (⟨2, 2⟩, .stake (.send 2 9 .fund)),
      (⟨3, 3⟩, .stake (.send 2 990 .stake)), (⟨3, 3⟩, .stake (.send 3 1000 .stake)),
      (⟨3, 3⟩, .stake (.send 1 500 .stake))])
    (p := fun w _ _ => decide (w.v.threshold = some (.percentage 500000000000000000) ∧
      w.s.c.balance = 2500 ∧ w.supply = 2500 ∧ w.s.c.claims = [] ∧ w.s.c.total = 250 ∧
      0 < w.s.c.stakedOf 2 ∧ 2 ≠ w.v.staking)) (by decide +kernel)
  obtain ⟨h1, h2, h3, h4, h5, h6, h7⟩ := of_decide_eq_true hp
  have hreach : sys.Reach w b log := ⟨_, _, exCreated, hr⟩
  refine ⟨w, b, log, hreach, h1, h2.trans h3.symm, h4, ?_, ?_⟩
  · intro now hb
    have := (C30_cw20_voting_history hreach .refl hb (by simp) 0 now).2
    simp only [totalPower, Option.getD_some, Prod.mk.injEq] at this
    simp only [active, totalPower, Option.getD_none, this.1, h5, h3, h1]
    decide +kernel
  · intro w' b' log' hr' hq
    have := C73_cw20_locked hreach h7 h6 hr' hq
    simp only [Cw20Stake.totalValue, h2, h5] at this
    omega

end Verif.Cw20Voting
