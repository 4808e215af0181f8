import Verif.Props.OwnedDao
import Verif.Props.Vesting
import Verif.Props.Issuer
import Verif.Props.DaoRewardsAuth
import Verif.Props.Roles
/-! C122: what belongs to a DAO is used as its members decide, for each contract that can belong to a DAO. -/

namespace Verif.OwnedDao
open Verif Verif.Spec Verif.Spec.OwnedDao
open Verif.WholeDao (VotingModule Env)
open Verif.Spec.WholeDao (Lawful)

variable {T F D P : Type} {U : VotingModule T F D P} {decode : Nat → DaoCore.CosmosMsg}

/-- An event of the history of the contract is a step of the contract. -/
theorem it_step {A G K R : Type} {X : Contract A G K R} {toCall : Nat → Option K} {w0 w : World T A} {b0 b : Block}
    {log : List (Event T A F D G K R)} (h : (sys U decode X toCall).Run w0 b0 log w b) {ev : Ev A G K R}
    (hev : ev ∈ itLog toCall log) : X.sys.step ev.pre ev.env ev.call = .ok (ev.post, ev.out) := by
  obtain ⟨_, h1, _⟩ := C122_contract h
  obtain ⟨_, _, _, _, _, _, hs, _⟩ := h1.event ev hev
  exact hs

theorem vesting_owner {ev : Ev Vesting.World Vesting.Env Vesting.Call (List Vesting.Pay)}
    (hs : vesting.sys.step ev.pre ev.env ev.call = .ok (ev.post, ev.out)) (ho : vestingOwners ev.call = true) :
    ∀ a, ev.pre.c.owner.owner = some a → vesting.caller ev.env ev.call = some a := by
  intro a ha
  have h1 : Vesting.step ev.pre ev.env ev.call = .ok (ev.post, ev.out) := hs
  obtain ⟨pre, env, call, out, post⟩ := ev
  simp only at ho h1 ha ⊢
  unfold vestingOwners at ho
  split at ho
  · rw [← ha, Vesting.C64_cancel h1]; rfl
  · rw [← ha, (Vesting.C64_slash h1).1]; rfl
  · cases ho

/-- **C122**, cw-vesting. In a contract that belongs to a DAO: the vest of somebody paid by the DAO is canceled, or said to be slashed, only if the members decide so; unless they decided to give the contract away. -/
theorem C122_vesting (hU : Lawful U) {toCall : Nat → Option Vesting.Call} {w0 w : World T Vesting.World} {b0 b : Block}
    {log : List (Event T Vesting.World F D Vesting.Env Vesting.Call (List Vesting.Pay))}
    {l : List (Ev Vesting.World Vesting.Env Vesting.Call (List Vesting.Pay))} {d : List (WholeDao.Event T F D)}
    (h : History U decode vesting toCall w0 w b0 b log l d) (h0 : w0.it.c.owner = { owner := some w.dao.core.core.me })
    {ev : Ev Vesting.World Vesting.Env Vesting.Call (List Vesting.Pay)} (hev : ev ∈ itLog toCall log)
    (ho : vestingOwners ev.call = true) :
    Ordered U decode toCall (daoLog log ++ d) ev.call ∨
      GivenAway U decode toCall Owners.Vest.tells (daoLog log ++ d) (itLog toCall log) := by
  refine C122_owner_acts (own := fun w => w.c.owner) hU Owners.Vest.owned ?_ h h0 hev
    (vesting_owner (it_step h.run hev) ho)
  intro g k x hx
  unfold Owners.Vest.tells at hx
  split at hx
  · injection hx with hx; subst hx; rfl
  · cases hx

theorem issuer_owner {ev : Ev Issuer.World Issuer.Env Issuer.Call Unit}
    (hs : issuer.sys.step ev.pre ev.env ev.call = .ok (ev.post, ev.out)) (ho : issuerOwners ev.call = true) :
    ∀ a, ev.pre.st.owner.owner = some a → issuer.caller ev.env ev.call = some a := by
  intro a ha
  have h1 : Issuer.step ev.pre ev.env ev.call = .ok (ev.post, ev.out) := hs
  obtain ⟨pre, env, call, out, post⟩ := ev
  cases call with
  | chain m => cases ho
  | exec m =>
    obtain ⟨msgs, h2, _, _⟩ := Issuer.step_exec h1
    have h3 := Issuer.exec_owner h2
    simp only at ha h3 ⊢
    rw [← ha]
    cases m <;> first | exact h3.symm | exact h3.1.symm | cases ho

/-- **C122**, cw-tokenfactory-issuer. In a contract that belongs to a DAO: minters and burners are named, accounts frozen, denied and allowed, tokens moved by force, and the token administered only if the members decide so; unless they decided to give the contract away. -/
theorem C122_issuer (hU : Lawful U) {toCall : Nat → Option Issuer.Call} {w0 w : World T Issuer.World} {b0 b : Block}
    {log : List (Event T Issuer.World F D Issuer.Env Issuer.Call Unit)}
    {l : List (Ev Issuer.World Issuer.Env Issuer.Call Unit)} {d : List (WholeDao.Event T F D)}
    (h : History U decode issuer toCall w0 w b0 b log l d) (h0 : w0.it.st.owner = { owner := some w.dao.core.core.me })
    {ev : Ev Issuer.World Issuer.Env Issuer.Call Unit} (hev : ev ∈ itLog toCall log)
    (ho : issuerOwners ev.call = true) :
    Ordered U decode toCall (daoLog log ++ d) ev.call ∨
      GivenAway U decode toCall Owners.TokenIssuer.tells (daoLog log ++ d) (itLog toCall log) := by
  refine C122_owner_acts (own := fun w => w.st.owner) hU Owners.TokenIssuer.owned ?_ h h0 hev
    (issuer_owner (it_step h.run hev) ho)
  intro g k x hx
  unfold Owners.TokenIssuer.tells at hx
  split at hx
  · injection hx with hx; subst hx; rfl
  · cases hx

theorem rewards_owner {ev : Ev DaoRewards.World Block DaoRewards.Call (List Verif.Pay)}
    (hs : rewards.sys.step ev.pre ev.env ev.call = .ok (ev.post, ev.out)) (ho : rewardsOwners ev.call = true) :
    ∀ a, ev.pre.c.ownership.owner = some a → rewards.caller ev.env ev.call = some a := by
  intro a ha
  have h1 : DaoRewards.step ev.pre ev.env ev.call = .ok (ev.post, ev.out) := hs
  obtain ⟨pre, env, call, out, post⟩ := ev
  simp only at ho h1 ha ⊢
  rw [← ha]
  unfold DaoRewards.step at h1
  obtain ⟨_, _, h1⟩ := (bind_ok _ _ _).mp h1
  obtain ⟨_, _, h1⟩ := (bind_ok _ _ _).mp h1
  unfold rewardsOwners at ho
  split at ho
  all_goals first | (cases ho; done) | skip
  all_goals
    obtain ⟨_, _, h1⟩ := (bind_ok _ _ _).mp h1
    obtain ⟨_, _, h1⟩ := (bind_ok _ _ _).mp h1
    obtain ⟨_, h2, _⟩ := (bind_ok _ _ _).mp h1
    simp only [DaoRewards.exec, DaoRewards.execCreate, DaoRewards.execUpdate, DaoRewards.execWithdraw, bind_ok,
      Ownership.assertOwner_ok] at h2
  · obtain ⟨_, ⟨_, h3, _⟩, _⟩ := h2
    exact h3.symm
  · obtain ⟨_, _, _, ⟨_, h3, _⟩, _⟩ := h2
    exact h3.symm
  · obtain ⟨_, _, _, h3, _⟩ := h2
    exact h3.symm

/-- **C122**, dao-rewards-distributor. In a contract that belongs to a DAO: distributions are created, changed and ended only if the members decide so; unless they decided to give the contract away. -/
theorem C122_rewards (hU : Lawful U) {toCall : Nat → Option DaoRewards.Call} {w0 w : World T DaoRewards.World} {b0 b : Block}
    {log : List (Event T DaoRewards.World F D Block DaoRewards.Call (List Verif.Pay))}
    {l : List (Ev DaoRewards.World Block DaoRewards.Call (List Verif.Pay))} {d : List (WholeDao.Event T F D)}
    (h : History U decode rewards toCall w0 w b0 b log l d) (h0 : w0.it.c.ownership = { owner := some w.dao.core.core.me })
    {ev : Ev DaoRewards.World Block DaoRewards.Call (List Verif.Pay)} (hev : ev ∈ itLog toCall log)
    (ho : rewardsOwners ev.call = true) :
    Ordered U decode toCall (daoLog log ++ d) ev.call ∨
      GivenAway U decode toCall Owners.Rewards.tells (daoLog log ++ d) (itLog toCall log) := by
  refine C122_owner_acts (own := fun w => w.c.ownership) hU Owners.Rewards.owned ?_ h h0 hev
    (rewards_owner (it_step h.run hev) ho)
  intro g k x hx
  unfold Owners.Rewards.tells at hx
  split at hx
  · injection hx with hx; subst hx; rfl
  · cases hx

theorem stake_owner {ev : Ev Cw20Stake.World Block Cw20Stake.Call Cw20Stake.Out}
    (hs : stake.sys.step ev.pre ev.env ev.call = .ok (ev.post, ev.out)) (ho : stakeOwners ev.call = true) :
    ∀ a, ev.pre.c.ownership.owner = some a → stake.caller ev.env ev.call = some a := by
  intro a ha
  have h1 : Cw20Stake.step ev.pre ev.env ev.call = .ok (ev.post, ev.out) := hs
  obtain ⟨pre, env, call, out, post⟩ := ev
  simp only at ho h1 ha ⊢
  unfold stakeOwners at ho
  split at ho
  · simp only [Cw20Stake.step, Cw20Stake.exec, Cw20Stake.execUpdateConfig, bind_ok, Ownership.assertOwner_ok] at h1
    obtain ⟨_, _, _, ⟨_, h2, _⟩, _⟩ := h1
    rw [← ha]; exact h2.symm
  · simp only [Cw20Stake.step, Cw20Stake.exec, bind_ok, Ownership.assertOwner_ok] at h1
    obtain ⟨_, _, _, ⟨_, h2, _⟩, _⟩ := h1
    rw [← ha]; exact h2.symm
  · simp only [Cw20Stake.step, Cw20Stake.exec, bind_ok, Ownership.assertOwner_ok] at h1
    obtain ⟨_, _, _, ⟨_, h2, _⟩, _⟩ := h1
    rw [← ha]; exact h2.symm
  · cases ho

/-- **C122**, cw20-stake. In a contract that belongs to a DAO: the unstaking duration is changed, and contracts hear of stakes, only if the members decide so; unless they decided to give the contract away. -/
theorem C122_stake (hU : Lawful U) {toCall : Nat → Option Cw20Stake.Call} {w0 w : World T Cw20Stake.World} {b0 b : Block}
    {log : List (Event T Cw20Stake.World F D Block Cw20Stake.Call Cw20Stake.Out)}
    {l : List (Ev Cw20Stake.World Block Cw20Stake.Call Cw20Stake.Out)} {d : List (WholeDao.Event T F D)}
    (h : History U decode stake toCall w0 w b0 b log l d) (h0 : w0.it.c.ownership = { owner := some w.dao.core.core.me })
    {ev : Ev Cw20Stake.World Block Cw20Stake.Call Cw20Stake.Out} (hev : ev ∈ itLog toCall log)
    (ho : stakeOwners ev.call = true) :
    Ordered U decode toCall (daoLog log ++ d) ev.call ∨
      GivenAway U decode toCall Owners.Stake.tells (daoLog log ++ d) (itLog toCall log) := by
  refine C122_owner_acts (own := fun w => w.c.ownership) hU Owners.Stake.owned ?_ h h0 hev
    (stake_owner (it_step h.run hev) ho)
  intro g k x hx
  unfold Owners.Stake.tells at hx
  split at hx
  · injection hx with hx; subst hx; rfl
  · cases hx

theorem distributor_owner {ev : Ev RewardDistributor.World RewardDistributor.Env RewardDistributor.Call (Option RewardDistributor.Pay)}
    (hs : distributor.sys.step ev.pre ev.env ev.call = .ok (ev.post, ev.out)) (ho : distributorOwners ev.call = true) :
    ∀ a, ev.pre.c.ownership.owner = some a → distributor.caller ev.env ev.call = some a := by
  intro a ha
  have h1 : RewardDistributor.step ev.pre ev.env ev.call = .ok (ev.post, ev.out) := hs
  obtain ⟨pre, env, call, out, post⟩ := ev
  simp only at ho h1 ha ⊢
  unfold distributorOwners at ho
  split at ho
  · simp only [RewardDistributor.step, RewardDistributor.exec, RewardDistributor.execUpdateConfig, bind_ok,
      Ownership.assertOwner_ok] at h1
    obtain ⟨_, _, _, ⟨_, h2, _⟩, _⟩ := h1
    rw [← ha]; exact h2.symm
  · simp only [RewardDistributor.step, RewardDistributor.exec, RewardDistributor.execWithdraw, bind_ok,
      Ownership.assertOwner_ok] at h1
    obtain ⟨_, _, _, ⟨_, h2, _⟩, _⟩ := h1
    rw [← ha]; exact h2.symm
  · cases ho

/-- **C122**, cw20-stake-reward-distributor. In a contract that belongs to a DAO: the rewards are redirected, or taken back, only if the members decide so; unless they decided to give the contract away. -/
theorem C122_distributor (hU : Lawful U) {toCall : Nat → Option RewardDistributor.Call} {w0 w : World T RewardDistributor.World} {b0 b : Block}
    {log : List (Event T RewardDistributor.World F D RewardDistributor.Env RewardDistributor.Call (Option RewardDistributor.Pay))}
    {l : List (Ev RewardDistributor.World RewardDistributor.Env RewardDistributor.Call (Option RewardDistributor.Pay))} {d : List (WholeDao.Event T F D)}
    (h : History U decode distributor toCall w0 w b0 b log l d) (h0 : w0.it.c.ownership = { owner := some w.dao.core.core.me })
    {ev : Ev RewardDistributor.World RewardDistributor.Env RewardDistributor.Call (Option RewardDistributor.Pay)} (hev : ev ∈ itLog toCall log)
    (ho : distributorOwners ev.call = true) :
    Ordered U decode toCall (daoLog log ++ d) ev.call ∨
      GivenAway U decode toCall Owners.Distributor.tells (daoLog log ++ d) (itLog toCall log) := by
  refine C122_owner_acts (own := fun w => w.c.ownership) hU Owners.Distributor.owned ?_ h h0 hev
    (distributor_owner (it_step h.run hev) ho)
  intro g k x hx
  unfold Owners.Distributor.tells at hx
  split at hx
  · injection hx with hx; subst hx; rfl
  · cases hx

theorem external_owner {ev : Ev ExternalRewards.World Block ExternalRewards.Call ExternalRewards.Pay}
    (hs : external.sys.step ev.pre ev.env ev.call = .ok (ev.post, ev.out)) (ho : externalOwners ev.call = true) :
    ∀ a, ev.pre.c.ownership.owner = some a → external.caller ev.env ev.call = some a := by
  intro a ha
  obtain ⟨pre, env, call, out, post⟩ := ev
  simp only [external, ExternalRewards.sys, bind_ok] at ho hs ha ⊢
  obtain ⟨_, _, h1⟩ := hs
  unfold externalOwners at ho
  split at ho
  · simp only [ExternalRewards.step, ExternalRewards.exec, ExternalRewards.execUpdateDuration, bind_ok,
      Ownership.assertOwner_ok] at h1
    obtain ⟨_, _, _, _, _, ⟨_, ⟨_, h2, _⟩, _⟩, _⟩ := h1
    rw [← ha]; exact h2.symm
  · simp only [ExternalRewards.step, ExternalRewards.fundMsg, bind_ok] at h1
    obtain ⟨_, _, _, _, _, h2, _⟩ := h1
    split at h2
    all_goals
      simp only [ExternalRewards.exec, ExternalRewards.execFund, bind_ok, Ownership.assertOwner_ok] at h2
      first
      | (obtain ⟨_, _, _, ⟨_, h3, _⟩, _⟩ := h2; rw [← ha]; exact h3.symm)
      | (obtain ⟨_, _, _, _, _, ⟨_, h3, _⟩, _⟩ := h2; rw [← ha]; exact h3.symm)
  · cases ho

/-- **C122**, cw20-stake-external-rewards. In a contract that belongs to a DAO: a funding, which fixes the rate of the rewards, and its duration come only from a decision of the members; unless they decided to give the contract away. -/
theorem C122_external (hU : Lawful U) {toCall : Nat → Option ExternalRewards.Call} {w0 w : World T ExternalRewards.World} {b0 b : Block}
    {log : List (Event T ExternalRewards.World F D Block ExternalRewards.Call ExternalRewards.Pay)}
    {l : List (Ev ExternalRewards.World Block ExternalRewards.Call ExternalRewards.Pay)} {d : List (WholeDao.Event T F D)}
    (h : History U decode external toCall w0 w b0 b log l d) (h0 : w0.it.c.ownership = { owner := some w.dao.core.core.me })
    {ev : Ev ExternalRewards.World Block ExternalRewards.Call ExternalRewards.Pay} (hev : ev ∈ itLog toCall log)
    (ho : externalOwners ev.call = true) :
    Ordered U decode toCall (daoLog log ++ d) ev.call ∨
      GivenAway U decode toCall Owners.External.tells (daoLog log ++ d) (itLog toCall log) := by
  refine C122_owner_acts (own := fun w => w.c.ownership) hU Owners.External.owned ?_ h h0 hev
    (external_owner (it_step h.run hev) ho)
  intro g k x hx
  unfold Owners.External.tells at hx
  split at hx
  · injection hx with hx; subst hx; rfl
  · cases hx

theorem payroll_owner {ev : Ev PayrollFactory.World PayrollFactory.Env PayrollFactory.Call (Option Addr)}
    (hs : payroll.sys.step ev.pre ev.env ev.call = .ok (ev.post, ev.out)) (ho : payrollOwners ev.call = true) :
    ∀ a, ev.pre.c.owner.owner = some a → payroll.caller ev.env ev.call = some a := by
  intro a ha
  have h1 : PayrollFactory.step ev.pre ev.env ev.call = .ok (ev.post, ev.out) := hs
  obtain ⟨pre, env, call, out, post⟩ := ev
  simp only at ho h1 ha ⊢
  unfold payrollOwners at ho
  split at ho
  · simp only [PayrollFactory.step, PayrollFactory.run, PayrollFactory.exec, bind_ok, Ownership.assertOwner_ok] at h1
    obtain ⟨_, _, _, _, _, ⟨_, h2, _⟩, _⟩ := h1
    rw [← ha]; exact h2.symm
  · simp only [PayrollFactory.step, PayrollFactory.run, PayrollFactory.exec, PayrollFactory.instantiateContract, bind_ok,
      require_ok, ha, decide_eq_true_eq] at h1
    obtain ⟨_, _, _, _, _, ⟨_, h2, _⟩, _⟩ := h1
    rw [h2]; rfl
  · cases ho

/-- **C122**, cw-payroll-factory. In a contract that belongs to a DAO: the code of payrolls is changed, and payrolls in native tokens are made, only if the members decide so; unless they decided to give the contract away. -/
theorem C122_payroll (hU : Lawful U) {toCall : Nat → Option PayrollFactory.Call} {w0 w : World T PayrollFactory.World} {b0 b : Block}
    {log : List (Event T PayrollFactory.World F D PayrollFactory.Env PayrollFactory.Call (Option Addr))}
    {l : List (Ev PayrollFactory.World PayrollFactory.Env PayrollFactory.Call (Option Addr))} {d : List (WholeDao.Event T F D)}
    (h : History U decode payroll toCall w0 w b0 b log l d) (h0 : w0.it.c.owner = { owner := some w.dao.core.core.me })
    {ev : Ev PayrollFactory.World PayrollFactory.Env PayrollFactory.Call (Option Addr)} (hev : ev ∈ itLog toCall log)
    (ho : payrollOwners ev.call = true) :
    Ordered U decode toCall (daoLog log ++ d) ev.call ∨
      GivenAway U decode toCall Owners.Payroll.tells (daoLog log ++ d) (itLog toCall log) := by
  refine C122_owner_acts (own := fun w => w.c.owner) hU Owners.Payroll.owned ?_ h h0 hev
    (payroll_owner (it_step h.run hev) ho)
  intro g k x hx
  unfold Owners.Payroll.tells at hx
  split at hx
  · injection hx with hx; subst hx; rfl
  · cases hx

/-- **C122**, cw721-roles. In a contract that belongs to a DAO nothing at all is done unless the members decide so. -/
theorem C122_roles (hU : Lawful U) {toCall : Nat → Option Roles.Msg} {w0 w : World T Roles.State} {b0 b : Block}
    {log : List (Event T Roles.State F D Roles.Env Roles.Msg Roles.Out)}
    {l : List (Ev Roles.State Roles.Env Roles.Msg Roles.Out)} {d : List (WholeDao.Event T F D)}
    (h : History U decode roles toCall w0 w b0 b log l d)
    (h0 : w0.it.ownership = { owner := some w.dao.core.core.me })
    {ev : Ev Roles.State Roles.Env Roles.Msg Roles.Out} (hev : ev ∈ itLog toCall log) :
    Ordered U decode toCall (daoLog log ++ d) ev.call ∨
      GivenAway U decode toCall Owners.Role.tells (daoLog log ++ d) (itLog toCall log) := by
  refine C122_owner_acts (own := fun w => w.ownership) hU Owners.Role.owned ?_ h h0 hev
    (fun a ha => ha.symm.trans (Roles.exec_owner (it_step h.run hev)) ▸ rfl)
  intro g k x hx
  unfold Owners.Role.tells at hx
  split at hx
  · injection hx with hx; subst hx; rfl
  · cases hx

end Verif.OwnedDao
