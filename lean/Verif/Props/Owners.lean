import Verif.Proofs.OwnersAll
/-!
# C109 and C110: who owns a contract

Every contract of the repository that uses `cw_ownable` passes its ownership on only by nomination and acceptance,
renouncing is for ever, and an owner can always hand the contract over (but see C67 for the role contracts).
-/

namespace Verif.Owners
open Verif Verif.Spec.Owners

/-! ## C109 -/

/-- **C109**, cw20-stake: the owner is who accepted last, and everybody who nominated, accepted or renounced was
entitled to. -/
theorem C109_stake {w0 w : Cw20Stake.World} {b0 b : Block} {log : List (Ev _ _ _ _)}
    (hi : Cw20Stake.sys.init b0 w0) (h : Cw20Stake.sys.Run w0 b0 log w b) :
    w.c.ownership.owner = ownerAfter w0.c.ownership.owner (said Stake.tells log) ∧
      Rightful w0.c.ownership.owner (said Stake.tells log) := by
  obtain ⟨o, t, d, hi, _⟩ := hi
  simp only [Cw20Stake.instantiate, bind_ok, Except.ok.injEq] at hi
  obtain ⟨_, _, hc⟩ := hi
  have h0 : w0.c.ownership = { owner := o } := by rw [← hc]
  obtain ⟨h1, h2⟩ := Stake.owned.history h0 h
  rw [h0]; exact ⟨h1.1, h2⟩

/-- **C109**, cw20-stake-reward-distributor. -/
theorem C109_distributor {w0 w : RewardDistributor.World} {b0 b : Block} {log : List (Ev _ _ _ _)}
    (hi : RewardDistributor.sys.init b0 w0) (h : RewardDistributor.sys.Run w0 b0 log w b) :
    w.c.ownership.owner = ownerAfter w0.c.ownership.owner (said Distributor.tells log) ∧
      Rightful w0.c.ownership.owner (said Distributor.tells log) := by
  obtain ⟨e, o, k, r, t, _, hi⟩ := hi
  simp only [RewardDistributor.instantiate, bind_ok, Except.ok.injEq] at hi
  have h0 : w0.c.ownership = { owner := some o } := by
    obtain ⟨_, _, _, _, hc⟩ := hi; rw [← hc]
  obtain ⟨h1, h2⟩ := Distributor.owned.history h0 h
  rw [h0]; exact ⟨h1.1, h2⟩

/-- **C109**, cw20-stake-external-rewards. -/
theorem C109_external {w0 w : ExternalRewards.World} {b0 b : Block} {log : List (Ev _ _ _ _)}
    (hi : ExternalRewards.sys.init b0 w0) (h : ExternalRewards.sys.Run w0 b0 log w b) :
    w.c.ownership.owner = ownerAfter w0.c.ownership.owner (said External.tells log) ∧
      Rightful w0.c.ownership.owner (said External.tells log) := by
  obtain ⟨⟨o, k, t, d, hi⟩, _⟩ := hi
  simp only [ExternalRewards.instantiate, bind_ok, Except.ok.injEq] at hi
  have h0 : w0.c.ownership = { owner := o } := by
    obtain ⟨_, _, hc⟩ := hi; rw [← hc]
  obtain ⟨h1, h2⟩ := External.owned.history h0 h
  rw [h0]; exact ⟨h1.1, h2⟩

/-- **C109**, dao-rewards-distributor, which is created with an owner and no nomination
(contracts/distribution/dao-rewards-distributor/src/contract.rs:43-47). -/
theorem C109_rewards {w0 w : DaoRewards.World} {b0 b : Block} {log : List (Ev _ _ _ _)} {owner : Addr}
    (hi : w0.c.ownership = { owner := some owner }) (h : DaoRewards.sys.Run w0 b0 log w b) :
    w.c.ownership.owner = ownerAfter (some owner) (said Rewards.tells log) ∧
      Rightful (some owner) (said Rewards.tells log) := by
  obtain ⟨h1, h2⟩ := Rewards.owned.history hi h
  exact ⟨h1.1, h2⟩

/-- **C109**, cw-tokenfactory-issuer. -/
theorem C109_issuer {w0 w : Issuer.World} {b0 b : Block} {log : List (Ev _ _ _ _)}
    (hi : Issuer.sys.init b0 w0) (h : Issuer.sys.Run w0 b0 log w b) :
    w.st.owner.owner = ownerAfter w0.st.owner.owner (said TokenIssuer.tells log) ∧
      Rightful w0.st.owner.owner (said TokenIssuer.tells log) := by
  obtain ⟨o, d, hc⟩ := hi
  have h0 : w0.st.owner = { owner := some o } := by rw [hc]; rfl
  obtain ⟨h1, h2⟩ := TokenIssuer.owned.history h0 h
  rw [h0]; exact ⟨h1.1, h2⟩

/-- **C109**, cw-vesting. -/
theorem C109_vesting {w0 w : Vesting.World} {b0 b : Block} {log : List (Ev _ _ _ _)}
    (hi : Vesting.sys.init b0 w0) (h : Vesting.sys.Run w0 b0 log w b) :
    w.c.owner.owner = ownerAfter w0.c.owner.owner (said Vest.tells log) ∧
      Rightful w0.c.owner.owner (said Vest.tells log) := by
  obtain ⟨m, _, hi, _⟩ := hi
  simp only [Vesting.instantiate, bind_ok, Except.ok.injEq] at hi
  have h0 : w0.c.owner = { owner := m.owner } := by
    obtain ⟨_, _, _, _, _, _, _, _, hc⟩ := hi; rw [← hc]
  obtain ⟨h1, h2⟩ := Vest.owned.history h0 h
  rw [h0]; exact ⟨h1.1, h2⟩

/-- **C109**, cw-payroll-factory. -/
theorem C109_payroll {w0 w : PayrollFactory.World} {b0 b : Block} {log : List (Ev _ _ _ _)}
    (hi : PayrollFactory.sys.init b0 w0) (h : PayrollFactory.sys.Run w0 b0 log w b) :
    w.c.owner.owner = ownerAfter w0.c.owner.owner (said Payroll.tells log) ∧
      Rightful w0.c.owner.owner (said Payroll.tells log) := by
  obtain ⟨⟨o, i, hc⟩, _⟩ := hi
  have h0 : w0.c.owner = { owner := o } := by rw [hc]; rfl
  obtain ⟨h1, h2⟩ := Payroll.owned.history h0 h
  rw [h0]; exact ⟨h1.1, h2⟩

/-- **C109**, cw721-roles. -/
theorem C109_roles {s0 s : Roles.State} {b0 b : Block} {log : List (Ev _ _ _ _)}
    (hi : Roles.sys.init b0 s0) (h : Roles.sys.Run s0 b0 log s b) :
    s.ownership.owner = ownerAfter s0.ownership.owner (said Role.tells log) ∧
      Rightful s0.ownership.owner (said Role.tells log) := by
  obtain ⟨o, hc⟩ := hi
  have h0 : s0.ownership = { owner := some o } := by rw [hc]; rfl
  obtain ⟨h1, h2⟩ := Role.owned.history h0 h
  rw [h0]; exact ⟨h1.1, h2⟩

/-- **C109**, what rightful calls imply in any of these contracts: a renunciation is the last word on the ownership, and
the contract has no owner ever after. -/
theorem C109_renounced {o : Option Addr} {l later earlier : List Said} {x : Said} (hl : Rightful o l)
    (e : l = later ++ x :: earlier) (hx : x.action = .renounce) : later = [] ∧ ownerAfter o l = none := by
  have h := rightful_renounced hl e hx
  refine ⟨h, ?_⟩
  rw [e, h]; simp [ownerAfter, hx]

/-- **C109**, likewise: an account that was not the first owner and is the owner now was nominated by whoever was the
owner then, accepted in time, and no other ownership call came between. -/
theorem C109_nominated {o : Option Addr} {l : List Said} {a : Addr} (hl : Rightful o l) (ha : ownerAfter o l = some a)
    (hn : o ≠ some a) : ∃ later x y earlier u, l = later ++ x :: y :: earlier ∧ x.by_ = a ∧ x.action = .accept ∧
      y.action = .transfer a u ∧ inTime x.block u ∧ ownerAfter o earlier = some y.by_ := by
  induction l with
  | nil => exact absurd ha hn
  | cons x l ih =>
    have hl' : Rightful o l := fun later y earlier h => hl (x :: later) y earlier (by rw [h]; rfl)
    cases hx : x.action with
    | transfer n u =>
      have : ownerAfter o l = some a := by simpa [ownerAfter, hx] using ha
      obtain ⟨later, x1, y1, earlier, v, e, h⟩ := ih hl' this
      exact ⟨x :: later, x1, y1, earlier, v, by rw [e]; rfl, h⟩
    | renounce => simp [ownerAfter, hx] at ha
    | accept =>
      have hb : x.by_ = a := by simpa [ownerAfter, hx] using ha
      have h1 := hl [] x l rfl
      rw [hx] at h1
      obtain ⟨y, rest, u, e, h2, h3⟩ := h1
      have h4 := hl [x] y rest (by rw [e]; rfl)
      rw [h2] at h4
      exact ⟨[], x, y, rest, u, by rw [e]; rfl, hb, hx, by rw [h2, hb], h3, h4⟩

/-! ## C110 -/

theorem update_transfer {o : Ownership} {b : Block} {a n : Addr} (h : o.owner = some a) :
    o.update b a (.transfer n none) = .ok { o with pendingOwner := some n, pendingExpiry := none } := by
  simp [Ownership.update, Ownership.assertOwner, h]

theorem update_accept {o : Option Addr} {b : Block} {n : Addr} :
    ({ owner := o, pendingOwner := some n, pendingExpiry := none } : Ownership).update b n .accept =
      .ok { owner := some n } := by
  simp [Ownership.update, Ownership.expired]

theorem update_renounce {o : Ownership} {b : Block} {a : Addr} (h : o.owner = some a) :
    o.update b a .renounce = .ok { owner := none } := by
  simp [Ownership.update, Ownership.assertOwner, h]

/-- **C110**, cw20-stake: the owner can always hand the contract to anybody, which changes nothing but the owner, and
can always renounce. -/
theorem C110_stake {w : Cw20Stake.World} {b b' : Block} {a n : Addr} (ho : w.c.ownership.owner = some a)
    (ha : a ≠ w.c.config.token ∧ a ≠ w.self) (hn : n ≠ w.c.config.token ∧ n ≠ w.self) (hb : b.le b') :
    (∃ log, Cw20Stake.sys.Run w b log { w with c := { w.c with ownership := { owner := some n } } } b' ∧
      said Stake.tells log = [⟨b', n, .accept⟩, ⟨b', a, .transfer n none⟩]) ∧
    (∃ log, Cw20Stake.sys.Run w b log { w with c := { w.c with ownership := { owner := none } } } b' ∧
      said Stake.tells log = [⟨b', a, .renounce⟩]) := by
  constructor
  · refine ⟨_, .step (env := b') (call := .exec n (.updateOwnership .accept)) (out := {})
      (.step (env := b') (call := .exec a (.updateOwnership (.transfer n none))) (out := {})
        (s2 := { w with c := { w.c with ownership := { w.c.ownership with pendingOwner := some n, pendingExpiry := none } } })
        .refl hb ?_) (Block.le_refl _) ?_, rfl⟩
    · simp only [Cw20Stake.sys, Cw20Stake.step, Cw20Stake.exec, update_transfer ho, ok_bind, require, ha, ne_eq,
        not_false_eq_true, and_self, decide_true, if_true, Cw20Stake.settle]
    · simp only [Cw20Stake.sys, Cw20Stake.step, Cw20Stake.exec, update_accept, ok_bind, require, hn, ne_eq,
        not_false_eq_true, and_self, decide_true, if_true, Cw20Stake.settle]
  · refine ⟨_, .step (env := b') (call := .exec a (.updateOwnership .renounce)) (out := {}) .refl hb ?_, rfl⟩
    simp only [Cw20Stake.sys, Cw20Stake.step, Cw20Stake.exec, update_renounce ho, ok_bind, require, ha, ne_eq,
      not_false_eq_true, and_self, decide_true, if_true, Cw20Stake.settle]

/-- **C110**, cw20-stake-reward-distributor. -/
theorem C110_distributor {w : RewardDistributor.World} {b : Block} {e : RewardDistributor.Env} {a n : Addr}
    (ho : w.c.ownership.owner = some a) (ha : a ≠ w.self) (hn : n ≠ w.self) (hb : b.le e.block) :
    (∃ log, RewardDistributor.sys.Run w b log { w with c := { w.c with ownership := { owner := some n } } } e.block ∧
      said Distributor.tells log = [⟨e.block, n, .accept⟩, ⟨e.block, a, .transfer n none⟩]) ∧
    (∃ log, RewardDistributor.sys.Run w b log { w with c := { w.c with ownership := { owner := none } } } e.block ∧
      said Distributor.tells log = [⟨e.block, a, .renounce⟩]) := by
  constructor
  · refine ⟨_, .step (env := e) (call := .exec n (.updateOwnership .accept)) (out := none)
      (.step (env := e) (call := .exec a (.updateOwnership (.transfer n none))) (out := none)
        (s2 := { w with c := { w.c with ownership := { w.c.ownership with pendingOwner := some n, pendingExpiry := none } } })
        .refl hb ?_) (Block.le_refl _) ?_, rfl⟩
    · simp only [RewardDistributor.sys, RewardDistributor.step, RewardDistributor.exec, update_transfer ho, ok_bind,
        require, ha, ne_eq, not_false_eq_true, decide_true, if_true, RewardDistributor.settle]
    · simp only [RewardDistributor.sys, RewardDistributor.step, RewardDistributor.exec, update_accept, ok_bind,
        require, hn, ne_eq, not_false_eq_true, decide_true, if_true, RewardDistributor.settle]
  · refine ⟨_, .step (env := e) (call := .exec a (.updateOwnership .renounce)) (out := none) .refl hb ?_, rfl⟩
    simp only [RewardDistributor.sys, RewardDistributor.step, RewardDistributor.exec, update_renounce ho, ok_bind,
      require, ha, ne_eq, not_false_eq_true, decide_true, if_true, RewardDistributor.settle]

/-- **C110**, cw20-stake-external-rewards. -/
theorem C110_external {w : ExternalRewards.World} {b b' : Block} {a n : Addr} (ho : w.c.ownership.owner = some a)
    (ha : a ≠ w.self) (hn : n ≠ w.self) (hb : b.le b') :
    (∃ log, ExternalRewards.sys.Run w b log { w with c := { w.c with ownership := { owner := some n } } } b' ∧
      said External.tells log = [⟨b', n, .accept⟩, ⟨b', a, .transfer n none⟩]) ∧
    (∃ log, ExternalRewards.sys.Run w b log { w with c := { w.c with ownership := { owner := none } } } b' ∧
      said External.tells log = [⟨b', a, .renounce⟩]) := by
  constructor
  · refine ⟨_, .step (env := b') (call := .exec n (.updateOwnership .accept)) (out := none)
      (.step (env := b') (call := .exec a (.updateOwnership (.transfer n none))) (out := none)
        (s2 := { w with c := { w.c with ownership := { w.c.ownership with pendingOwner := some n, pendingExpiry := none } } })
        .refl hb ?_) (Block.le_refl _) ?_, rfl⟩
    · simp only [ExternalRewards.sys, ExternalRewards.step, ExternalRewards.exec, ExternalRewards.honest,
        update_transfer ho, ok_bind, require, ha, ne_eq, not_false_eq_true, decide_true, if_true, ExternalRewards.settle]
    · simp only [ExternalRewards.sys, ExternalRewards.step, ExternalRewards.exec, ExternalRewards.honest,
        update_accept, ok_bind, require, hn, ne_eq, not_false_eq_true, decide_true, if_true, ExternalRewards.settle]
  · refine ⟨_, .step (env := b') (call := .exec a (.updateOwnership .renounce)) (out := none) .refl hb ?_, rfl⟩
    simp only [ExternalRewards.sys, ExternalRewards.step, ExternalRewards.exec, ExternalRewards.honest,
      update_renounce ho, ok_bind, require, ha, ne_eq, not_false_eq_true, decide_true, if_true, ExternalRewards.settle]

/-- **C110**, dao-rewards-distributor. -/
theorem C110_rewards {w : DaoRewards.World} {b b' : Block} {a n : Addr} (ho : w.c.ownership.owner = some a)
    (ha : a ≠ w.me) (hn : n ≠ w.me) (hb : b.le b') (hnow : w.now.height < b'.height ∨ w.now = b')
    (h64 : b'.height < U64) :
    (∃ log, DaoRewards.sys.Run w b log { w with c := { w.c with ownership := { owner := some n } }, now := b' } b' ∧
      said Rewards.tells log = [⟨b', n, .accept⟩, ⟨b', a, .transfer n none⟩]) ∧
    (∃ log, DaoRewards.sys.Run w b log { w with c := { w.c with ownership := { owner := none } }, now := b' } b' ∧
      said Rewards.tells log = [⟨b', a, .renounce⟩]) := by
  constructor
  · refine ⟨_, .step (env := b') (call := .exec n [] (.updateOwnership .accept)) (out := [])
      (.step (env := b') (call := .exec a [] (.updateOwnership (.transfer n none))) (out := [])
        (s2 := { w with
          c := { w.c with ownership := { w.c.ownership with pendingOwner := some n, pendingExpiry := none } }, now := b' })
        .refl hb ?_) (Block.le_refl _) ?_, rfl⟩
    · simp only [DaoRewards.sys, DaoRewards.step, DaoRewards.exec, payAll, pullCoins, hnow, h64,
        update_transfer ho, ok_bind, require, ha, ne_eq, not_false_eq_true, decide_true, if_true]
    · simp only [DaoRewards.sys, DaoRewards.step, DaoRewards.exec, payAll, pullCoins, h64, or_true,
        update_accept, ok_bind, require, hn, ne_eq, not_false_eq_true, decide_true, if_true]
  · refine ⟨_, .step (env := b') (call := .exec a [] (.updateOwnership .renounce)) (out := []) .refl hb ?_, rfl⟩
    simp only [DaoRewards.sys, DaoRewards.step, DaoRewards.exec, payAll, pullCoins, hnow, h64,
      update_renounce ho, ok_bind, require, ha, ne_eq, not_false_eq_true, decide_true, if_true]

/-- **C110**, cw-tokenfactory-issuer. -/
theorem C110_issuer {w : Issuer.World} {b b' : Block} {a n : Addr} (ho : w.st.owner.owner = some a) (hb : b.le b') :
    (∃ log, Issuer.sys.Run w b log { w with st := { w.st with owner := { owner := some n } } } b' ∧
      said TokenIssuer.tells log = [⟨b', n, .accept⟩, ⟨b', a, .transfer n none⟩]) ∧
    (∃ log, Issuer.sys.Run w b log { w with st := { w.st with owner := { owner := none } } } b' ∧
      said TokenIssuer.tells log = [⟨b', a, .renounce⟩]) := by
  constructor
  · refine ⟨_, .step (M := Issuer.sys) (env := ({ block := b', sender := n } : Issuer.Env)) (call := Issuer.Call.exec (.updateOwnership .accept)) (out := ())
      (.step (M := Issuer.sys) (env := ({ block := b', sender := a } : Issuer.Env)) (call := Issuer.Call.exec (.updateOwnership (.transfer n none))) (out := ())
        (s2 := { w with st := { w.st with owner := { w.st.owner with pendingOwner := some n, pendingExpiry := none } } })
        .refl hb ?_) (Block.le_refl _) ?_, rfl⟩
    · simp only [Issuer.sys, Issuer.step, Issuer.exec, Issuer.Chain.runAll, update_transfer ho, ok_bind]
    · simp only [Issuer.sys, Issuer.step, Issuer.exec, Issuer.Chain.runAll, update_accept, ok_bind]
  · refine ⟨_, .step (M := Issuer.sys) (env := ({ block := b', sender := a } : Issuer.Env)) (call := Issuer.Call.exec (.updateOwnership .renounce)) (out := ())
      .refl hb ?_, rfl⟩
    simp only [Issuer.sys, Issuer.step, Issuer.exec, Issuer.Chain.runAll, update_renounce ho, ok_bind]

theorem mayUpdate_of {s : Vesting.State} {x : OwnerAction} (hx : x ≠ .renounce) : Vesting.mayUpdateOwner s x = true := by
  unfold Vesting.mayUpdateOwner
  split
  · simp [hx]
  · rfl

/-- **C110**, cw-vesting: the owner can always hand the contract over, and can renounce unless the vest was cancelled
and owes the owner something. -/
theorem C110_vesting {w : Vesting.World} {b b' : Block} {a n : Addr} (ho : w.c.owner.owner = some a) (hb : b.le b') :
    (∃ log w', Vesting.sys.Run w b log w' b' ∧ w'.c = { w.c with owner := { owner := some n } } ∧
      said Vest.tells log = [⟨b', n, .accept⟩, ⟨b', a, .transfer n none⟩]) ∧
    ((∀ owed, w.c.vest.status = .canceled owed → owed = 0) →
      ∃ log w', Vesting.sys.Run w b log w' b' ∧ w'.c = { w.c with owner := { owner := none } } ∧
        said Vest.tells log = [⟨b', a, .renounce⟩]) ∧
    (∀ owed, w.c.vest.status = .canceled owed → owed ≠ 0 → ∀ e : Vesting.Env,
      Vesting.sys.step w e (.msg (.updateOwnership .renounce)) = .error .invalid) := by
  refine ⟨?_, ?_, ?_⟩
  · let w1 : Vesting.World := { Vesting.mature w (StakeTracker.secs b') with
      c := { w.c with owner := { w.c.owner with pendingOwner := some n, pendingExpiry := none } }
      bank := (Vesting.mature w (StakeTracker.secs b')).bank + 0 }
    let w2 : Vesting.World := { Vesting.mature w1 (StakeTracker.secs b') with
      c := { w.c with owner := { owner := some n } }
      bank := (Vesting.mature w1 (StakeTracker.secs b')).bank + 0 }
    refine ⟨_, w2, .step (M := Vesting.sys) (env := ({ block := b', sender := n } : Vesting.Env)) (call := Vesting.Call.msg (.updateOwnership .accept)) (out := [])
      (.step (M := Vesting.sys) (env := ({ block := b', sender := a } : Vesting.Env)) (call := Vesting.Call.msg (.updateOwnership (.transfer n none))) (out := [])
        (s2 := w1) .refl hb ?_) (Block.le_refl _) ?_, rfl, rfl⟩
    · have hm : Vesting.mayUpdateOwner (Vesting.mature w (StakeTracker.secs b')).c (.transfer n none) = true :=
        mayUpdate_of (by intro h; cases h)
      have hu : (Vesting.mature w (StakeTracker.secs b')).c.owner.update b' a (.transfer n none) = _ := update_transfer ho
      simp only [Vesting.sys, Vesting.step, Vesting.exec, hm, hu, require, ok_bind, if_true, Vesting.settle,
        Vesting.incoming]
      rfl
    · have hm : Vesting.mayUpdateOwner (Vesting.mature w1 (StakeTracker.secs b')).c .accept = true :=
        mayUpdate_of (by intro h; cases h)
      have hu : (Vesting.mature w1 (StakeTracker.secs b')).c.owner.update b' n .accept = _ := update_accept
      simp only [Vesting.sys, Vesting.step, Vesting.exec, hm, hu, require, ok_bind, if_true, Vesting.settle,
        Vesting.incoming]
      rfl
  · intro hz
    let w1 : Vesting.World := { Vesting.mature w (StakeTracker.secs b') with
      c := { w.c with owner := { owner := none } }
      bank := (Vesting.mature w (StakeTracker.secs b')).bank + 0 }
    refine ⟨_, w1, .step (M := Vesting.sys) (env := ({ block := b', sender := a } : Vesting.Env)) (call := Vesting.Call.msg (.updateOwnership .renounce)) (out := [])
      .refl hb ?_, rfl, rfl⟩
    have hm : Vesting.mayUpdateOwner (Vesting.mature w (StakeTracker.secs b')).c .renounce = true := by
      show Vesting.mayUpdateOwner w.c .renounce = true
      unfold Vesting.mayUpdateOwner
      split
      · rename_i ow h; simp [hz ow h]
      · rfl
    have hu : (Vesting.mature w (StakeTracker.secs b')).c.owner.update b' a .renounce = _ := update_renounce ho
    simp only [Vesting.sys, Vesting.step, Vesting.exec, hm, hu, require, ok_bind, if_true, Vesting.settle,
      Vesting.incoming]
    rfl
  · intro owed h1 h2 e
    have hm : Vesting.mayUpdateOwner (Vesting.mature w (StakeTracker.secs e.block)).c .renounce = false := by
      show Vesting.mayUpdateOwner w.c .renounce = false
      simp [Vesting.mayUpdateOwner, h1, h2]
    simp only [Vesting.sys, Vesting.step, Vesting.exec, hm, require, error_bind, Bool.false_eq_true, if_false]

/-- **C110**, cw-payroll-factory. -/
theorem C110_payroll {w : PayrollFactory.World} {b b' : Block} {a n : Addr} (ho : w.c.owner.owner = some a)
    (ha : a ≠ w.self ∧ a ∉ w.honest) (hn : n ≠ w.self ∧ n ∉ w.honest) (hb : b.le b') :
    (∃ log, PayrollFactory.sys.Run w b log { w with c := { w.c with owner := { owner := some n } } } b' ∧
      said Payroll.tells log = [⟨b', n, .accept⟩, ⟨b', a, .transfer n none⟩]) ∧
    (∃ log, PayrollFactory.sys.Run w b log { w with c := { w.c with owner := { owner := none } } } b' ∧
      said Payroll.tells log = [⟨b', a, .renounce⟩]) := by
  have hne : ∀ x : Nat, x + 1 ≠ x := fun x => by omega
  constructor
  · refine ⟨_, .step (M := PayrollFactory.sys) (env := ({ block := b', sender := n, newAddr := n + 1 } : PayrollFactory.Env)) (call := PayrollFactory.Call.msg (.updateOwnership .accept))
      (out := none)
      (.step (M := PayrollFactory.sys) (env := ({ block := b', sender := a, newAddr := a + 1 } : PayrollFactory.Env)) (call := PayrollFactory.Call.msg (.updateOwnership (.transfer n none)))
        (out := none)
        (s2 := { w with c := { w.c with owner := { w.c.owner with pendingOwner := some n, pendingExpiry := none } } })
        .refl hb ?_) (Block.le_refl _) ?_, rfl⟩
    · simp only [PayrollFactory.sys, PayrollFactory.step, PayrollFactory.run, PayrollFactory.exec, PayrollFactory.finish,
        pullCoins, update_transfer ho, ok_bind, require, ha, hne, ne_eq, not_false_eq_true, decide_true, Bool.and_self,
        if_true]
    · simp only [PayrollFactory.sys, PayrollFactory.step, PayrollFactory.run, PayrollFactory.exec, PayrollFactory.finish,
        pullCoins, update_accept, ok_bind, require, hn, hne, ne_eq, not_false_eq_true, decide_true, Bool.and_self,
        if_true]
  · refine ⟨_, .step (M := PayrollFactory.sys) (env := ({ block := b', sender := a, newAddr := a + 1 } : PayrollFactory.Env)) (call := PayrollFactory.Call.msg (.updateOwnership .renounce))
      (out := none) .refl hb ?_, rfl⟩
    simp only [PayrollFactory.sys, PayrollFactory.step, PayrollFactory.run, PayrollFactory.exec, PayrollFactory.finish,
      pullCoins, update_renounce ho, ok_bind, require, ha, hne, ne_eq, not_false_eq_true, decide_true, Bool.and_self,
      if_true]

/-! ## Examples -/

/-- The owner 1 of a staking contract nominates 2 until height 10 and then, instead, 3; 2 is refused; 3 accepts and later
renounces. -/
theorem C109_example : ∃ (w0 w : Cw20Stake.World) (b : Block) (log : List (Ev _ _ _ _)),
    Cw20Stake.sys.init ⟨0, 0⟩ w0 ∧ Cw20Stake.sys.Run w0 ⟨0, 0⟩ log w b ∧ w0.c.ownership.owner = some 1 ∧
      w.c.ownership.owner = some 3 ∧
      said Stake.tells log = [⟨⟨6, 6⟩, 3, .accept⟩, ⟨⟨5, 5⟩, 1, .transfer 3 none⟩,
        ⟨⟨4, 4⟩, 1, .transfer 2 (some (.atHeight 10))⟩] ∧
      Cw20Stake.sys.step w ⟨7, 7⟩ (.exec 2 (.updateOwnership .accept)) = .error .unauthorized := by
  let c0 : Cw20Stake.State :=
    { config := ⟨9, none⟩, staked := Snap.empty, stakedTotal := Snap.empty.save () 0 0
      claims := [], balance := 0, hooks := none, ownership := { owner := some 1 } }
  let w0 : Cw20Stake.World := { c := c0, self := 8, ledger := [] }
  have hr := Sys.check_run (M := Cw20Stake.sys) (s := w0) (b := ⟨0, 0⟩)
    (cs := [(⟨4, 4⟩, .exec 1 (.updateOwnership (.transfer 2 (some (.atHeight 10))))),
      (⟨5, 5⟩, .exec 1 (.updateOwnership (.transfer 3 none))), (⟨6, 6⟩, .exec 3 (.updateOwnership .accept))])
    (p := fun w _ log => decide (w.c.ownership.owner = some 3) &&
      decide (said Stake.tells log = [⟨⟨6, 6⟩, 3, .accept⟩, ⟨⟨5, 5⟩, 1, .transfer 3 none⟩,
        ⟨⟨4, 4⟩, 1, .transfer 2 (some (.atHeight 10))⟩]) &&
      decide ((Cw20Stake.sys.step w ⟨7, 7⟩ (.exec 2 (.updateOwnership .accept))) = .error .unauthorized))
    (by decide +kernel)
  obtain ⟨w, b, log, h1, h2⟩ := hr
  simp only [Bool.and_eq_true, decide_eq_true_eq] at h2
  exact ⟨w0, w, b, log, ⟨some 1, 9, none, rfl, by decide +kernel, by decide⟩, h1, rfl, h2.1.1, h2.1.2, h2.2⟩

end Verif.Owners
