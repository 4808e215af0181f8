import Verif.Props.StakingUpgrade
/-!
# Examples for C84: staking contracts are upgraded
-/

namespace Verif.StakingUpgrade.Example
open Verif Verif.StakingUpgrade Verif.Spec.StakingUpgrade

/-! ### cw20-stake -/

/-- A pool of version 1: token 8, owner 1, unstaking takes ten blocks; 2 has staked 100 of the 1000 tokens they had. -/
def wStake : Cw20Stake.World :=
  match Cw20Stake.sys.play Cw20Stake.exW ⟨1, 1⟩ [(⟨2, 2⟩, .send 2 100 .stake)] with
  | some r => r.1
  | none => Cw20Stake.exW

/-- What version 1 left. -/
def stStake : Storage OldStake (Cw20Stake.Config × Ownership) Cw20Stake.World :=
  { version := 1, old := some ⟨some 1, 8, some (.height 10)⟩, new := none, rest := { wStake with c := { wStake.c with config := ⟨0, none⟩, ownership := { owner := none } } } }

theorem stStake_old : StakeOld stStake wStake where
  settings := ⟨_, rfl, by decide +kernel, by decide +kernel, by decide +kernel⟩
  staked := rfl
  total := rfl
  claims := rfl
  balance := rfl
  hooks := rfl
  chain := ⟨rfl, rfl⟩
  notYet := rfl

theorem wStake_reach : ∃ log, Cw20Stake.sys.Reach wStake ⟨2, 2⟩ log := by
  have h : Cw20Stake.sys.step Cw20Stake.exW ⟨2, 2⟩ (.send 2 100 .stake) = .ok (wStake, {}) ∨
      ∃ out, Cw20Stake.sys.step Cw20Stake.exW ⟨2, 2⟩ (.send 2 100 .stake) = .ok (wStake, out) := by
    right
    cases hs : Cw20Stake.sys.step Cw20Stake.exW ⟨2, 2⟩ (.send 2 100 .stake) with
    | error x =>
      have : (match Cw20Stake.sys.step Cw20Stake.exW ⟨2, 2⟩ (.send 2 100 .stake) with | .ok _ => true | .error _ => false) = true := by
        decide +kernel
      rw [hs] at this
      cases this
    | ok r =>
      refine ⟨r.2, ?_⟩
      have : wStake = r.1 := by
        unfold wStake
        simp only [Sys.play, hs]
        rfl
      rw [this]
  rcases h with h | ⟨out, h⟩
  · exact ⟨_, ⟨1, 1⟩, Cw20Stake.exW, ⟨some 1, 8, some (.height 10), rfl, by decide +kernel, by decide +kernel⟩,
      .step .refl ⟨by decide, by decide⟩ h⟩
  · exact ⟨_, ⟨1, 1⟩, Cw20Stake.exW, ⟨some 1, 8, some (.height 10), rfl, by decide +kernel, by decide +kernel⟩,
      .step .refl ⟨by decide, by decide⟩ h⟩

/-- Upgrade; the owner shortens unstaking to one block and gives up ownership; 2 unstakes 40 and claims them. -/
def stakeLife : List (Block × Call Cw20Stake.Call) :=
  [(⟨3, 3⟩, .fromV1 2), (⟨4, 4⟩, .run (.exec 1 (.updateConfig (some (.height 1))))),
   (⟨4, 4⟩, .run (.exec 1 (.updateOwnership .renounce))), (⟨5, 5⟩, .run (.exec 2 (.unstake 40))),
   (⟨6, 6⟩, .run (.exec 2 .claim))]

/-- C84: the upgraded pool works. -/
theorem C84_stake_example : ∃ st b log, (sys stakeCode Cw20Stake.sys).Run stStake ⟨2, 2⟩ log st b ∧
    upgrades log = 1 ∧ ∃ w, st.view stakeCode = some w ∧ Verif.Spec.Stake.tokens w 2 = 940 ∧ w.c.total = 60 ∧
      w.c.ownership.owner = none ∧ w.c.config.unstakingDuration = some (.height 1) := by
  obtain ⟨st, b, log, hr, hp⟩ := Sys.check_run (M := sys stakeCode Cw20Stake.sys) (s := stStake) (b := ⟨2, 2⟩)
    (cs := stakeLife) (p := fun st _ log => decide (upgrades log = 1) && match st.view stakeCode with
      | some w => decide (Verif.Spec.Stake.tokens w 2 = 940 ∧ w.c.total = 60 ∧ w.c.ownership.owner = none ∧
          w.c.config.unstakingDuration = some (.height 1))
      | none => false) (by decide +kernel)
  simp only [Bool.and_eq_true, decide_eq_true_eq] at hp
  obtain ⟨h1, h2⟩ := hp
  cases hv : st.view stakeCode with
  | none => rw [hv] at h2; cases h2
  | some w => rw [hv] at h2; exact ⟨st, b, log, hr, h1, w, hv, of_decide_eq_true h2⟩

/-- C84, the code does not keep this: the same message once more, to a later version, makes 1 owner again, although they
gave up ownership so that nobody could ever change the pool, and unstaking takes ten blocks again; 1 then makes it take a
hundred. -/
theorem C84_again_witness : ∃ st b log, (sys stakeCode Cw20Stake.sys).Run stStake ⟨2, 2⟩ log st b ∧
    ∃ w, st.view stakeCode = some w ∧ w.c.ownership.owner = some 1 ∧
      w.c.config.unstakingDuration = some (.height 100) := by
  obtain ⟨st, b, log, hr, hp⟩ := Sys.check_run (M := sys stakeCode Cw20Stake.sys) (s := stStake) (b := ⟨2, 2⟩)
    (cs := stakeLife ++ [(⟨7, 7⟩, .fromV1 3), (⟨8, 8⟩, .run (.exec 1 (.updateConfig (some (.height 100)))))])
    (p := fun st _ _ => match st.view stakeCode with
      | some w => decide (w.c.ownership.owner = some 1 ∧ w.c.config.unstakingDuration = some (.height 100))
      | none => false) (by decide +kernel)
  cases hv : st.view stakeCode with
  | none => rw [hv] at hp; cases hp
  | some w => rw [hv] at hp; exact ⟨st, b, log, hr, w, hv, of_decide_eq_true hp⟩

/-! ### The rewards -/

/-- External rewards of version 1: 3 per block until block 20, for the pool 9 in token 5; 2 is owed 12. -/
def wRewards : ExternalRewards.World :=
  { c := { ownership := { owner := some 1 }, staking := 9, token := .cw20 5, finish := 20, rate := 3, duration := 10
           perToken := 4, lastUpdate := 8, pending := [(2, 12)], userPerToken := [(2, 4)] }
    self := 6, ledger := [((6 : Addr), 50)], stakes := { cur := [(2, 10)], log := [] }, totals := { cur := [((), 10)], log := [] } }

def stRewards : Storage OldRewards (Addr × ExternalRewards.Denom × Ownership) ExternalRewards.World :=
  { version := 1, old := some ⟨some 1, 9, .cw20 5⟩, new := none, rest := { wRewards with c := { wRewards.c with staking := 0, token := .native, ownership := { owner := none } } } }

theorem stRewards_old : RewardsOld stRewards wRewards where
  settings := ⟨_, rfl, rfl, rfl, rfl⟩
  period := ⟨rfl, rfl, rfl⟩
  sums := ⟨rfl, rfl⟩
  users := ⟨rfl, rfl⟩
  chain := ⟨rfl, rfl, rfl, rfl⟩
  notYet := rfl

/-- C84: the upgrade goes through and keeps them. -/
theorem C84_rewards_example : ∃ st, migrate rewardsCode stRewards 2 = .ok st ∧ st.view rewardsCode = some wRewards := by
  obtain ⟨st, h⟩ := (C84_accepted rewardsCode stRewards 2).2 ⟨by decide, by decide⟩
  exact ⟨st, h, C84_rewards_kept stRewards_old h⟩

/-- A distributor of version 1: 2 per block of token 5 to the pool 9, owner 1. -/
def wDist : RewardDistributor.World :=
  { c := { ownership := { owner := some 1 }, staking := 9, rate := 2, token := 5, lastPayment := 3 }, self := 6, ledger := [((5, 6), 50)] }

def stDist : Storage OldDistributor (Addr × Nat × Addr × Ownership) RewardDistributor.World :=
  { version := 1, old := some ⟨1, 9, 2, 5⟩, new := none, rest := { wDist with c := { wDist.c with staking := 0, rate := 0, token := 0, ownership := { owner := none } } } }

theorem stDist_old : DistributorOld stDist wDist where
  settings := ⟨_, rfl, rfl, rfl, rfl, rfl⟩
  lastPayment := rfl
  chain := ⟨rfl, rfl⟩
  notYet := rfl

/-- C84: the upgraded distributor pays what is due since its last payment under version 1. -/
theorem C84_distributor_example : ∃ st b log, (sys distributorCode RewardDistributor.sys).Run stDist ⟨5, 5⟩ log st b ∧
    ∃ w, st.view distributorCode = some w ∧ getD0 w.ledger (5, 9) = 14 ∧ w.c.lastPayment = 10 ∧
      w.c.ownership.owner = some 1 := by
  obtain ⟨st, b, log, hr, hp⟩ := Sys.check_run (M := sys distributorCode RewardDistributor.sys) (s := stDist) (b := ⟨5, 5⟩)
    (cs := [({ block := ⟨6, 6⟩ }, .fromV1 2), ({ block := ⟨10, 10⟩ }, .run (.exec 3 .distribute))])
    (p := fun st _ _ => match st.view distributorCode with
      | some w => decide (getD0 w.ledger (5, 9) = 14 ∧ w.c.lastPayment = 10 ∧ w.c.ownership.owner = some 1)
      | none => false) (by decide +kernel)
  cases hv : st.view distributorCode with
  | none => rw [hv] at hp; cases hp
  | some w => rw [hv] at hp; exact ⟨st, b, log, hr, w, hv, of_decide_eq_true hp⟩

end Verif.StakingUpgrade.Example
