import Verif.Spec.StakingUpgrade
import Verif.Props.Cw20Stake
/-!
# Upgrades of the staking contracts (C84)
-/

namespace Verif.StakingUpgrade
open Verif Verif.Spec.StakingUpgrade

variable {O K W E C Out : Type}

/-- Reading and writing the settings fit together. -/
structure Lawful (c : Code O K W) : Prop where
  settings_put : ∀ w k, c.settings (c.put w k) = k
  put_settings : ∀ w, c.put w (c.settings w) = w
  put_put : ∀ w k k', c.put (c.put w k) k' = c.put w k'

theorem migrate_ok {c : Code O K W} {st st' : Storage O K W} {ver : Nat} :
    migrate c st ver = .ok st' ↔
      st.version ≠ ver ∧ ∃ o, st.old = some o ∧ st' = { st with version := ver, new := some (c.convert o) } := by
  simp only [migrate, bind_ok, require_ok, orErr_ok, decide_eq_true_eq, Except.ok.injEq]
  constructor
  · rintro ⟨_, h, o, ho, rfl⟩; exact ⟨h, o, ho, rfl⟩
  · rintro ⟨h, o, ho, rfl⟩; exact ⟨(), h, o, ho, rfl⟩

theorem call_ok {c : Code O K W} {M : Sys W E C Out} {st st' : Storage O K W} {e : E} {x : C} {out : Option Out} :
    call c M st e x = .ok (st', out) ↔
      ∃ w w' o, st.view c = some w ∧ M.step w e x = .ok (w', o) ∧ out = some o ∧
        st' = { st with new := some (c.settings w'), rest := w' } := by
  simp only [call, bind_ok, orErr_ok, Except.ok.injEq, Prod.mk.injEq]
  constructor
  · rintro ⟨w, hw, ⟨w', o⟩, hs, rfl, rfl⟩; exact ⟨w, w', o, hw, hs, rfl, rfl⟩
  · rintro ⟨w, w', o, hw, hs, rfl, rfl⟩; exact ⟨w, hw, (w', o), hs, rfl, rfl⟩

/-- C84: an upgrade goes through exactly when the new code has another version than the one in storage and version 1 has
left its settings. A contract that was never of version 1 refuses it. -/
theorem C84_accepted (c : Code O K W) (st : Storage O K W) (ver : Nat) :
    (∃ st', migrate c st ver = .ok st') ↔ st.version ≠ ver ∧ st.old ≠ none := by
  simp only [migrate_ok]
  constructor
  · rintro ⟨st', h, o, ho, _⟩; exact ⟨h, by rw [ho]; simp⟩
  · rintro ⟨h, ho⟩
    cases hc : st.old with
    | none => exact absurd hc ho
    | some o => exact ⟨_, h, o, rfl, rfl⟩

/-- C84: right after an upgrade to a version the same upgrade is refused, however often it is tried. -/
theorem C84_not_twice {c : Code O K W} {st st' : Storage O K W} {ver : Nat} (h : migrate c st ver = .ok st') :
    ∀ r, migrate c st' ver ≠ .ok r := by
  obtain ⟨_, o, _, rfl⟩ := migrate_ok.1 h
  intro r hr
  exact (migrate_ok.1 hr).1 rfl

/-- C84: what version 1 left is nothing the new code acts on: until the upgrade every call is refused. -/
theorem C84_before (c : Code O K W) (M : Sys W E C Out) (st : Storage O K W) (h : st.new = none) (e : E) (x : C) :
    ∀ r, (sys c M).step st e (.run x) ≠ .ok r := by
  rintro ⟨st', out⟩ hr
  obtain ⟨w, w', o, hw, _⟩ := call_ok.1 hr
  simp [Storage.view, h] at hw

/-- Between upgrades the contract is the one of version 2. -/
theorem run_plain {c : Code O K W} (hc : Lawful c) {M : Sys W E C Out} {st st' : Storage O K W} {b b' : Block}
    {log : List (Ev (Storage O K W) E (Call C) (Option Out))} {w : W} (hw : st.view c = some w)
    (h : (sys c M).Run st b log st' b') (hn : NoUpgrade log) :
    ∃ w' log', st'.view c = some w' ∧ M.Run w b log' w' b' ∧ plain log' = calls log ∧ st'.old = st.old := by
  induction h with
  | refl => exact ⟨w, [], hw, .refl, rfl, rfl⟩
  | step hr hb hs ih =>
    rename_i s1 s2 b1 log env call' out
    obtain ⟨w1, l1, h1, h2, h3, h4⟩ := ih (fun e he => hn e (List.mem_cons_of_mem _ he))
    cases call' with
    | fromV1 ver => exact absurd rfl (hn _ (List.mem_cons_self ..) ver)
    | run x =>
      obtain ⟨v, w2, o, hv, hm, rfl, rfl⟩ := call_ok.1 hs
      rw [h1] at hv
      cases hv
      refine ⟨w2, ⟨w1, env, x, o, w2⟩ :: l1, ?_, .step h2 hb hm, ?_, h4⟩
      · simp [Storage.view, hc.put_settings]
      · simp only [plain, calls, List.map_cons, ← h3]

/-- Upgrades in a history. -/
def upgrades : List (Ev (Storage O K W) E (Call C) (Option Out)) → Nat
  | [] => 0
  | e :: log => (match e.call with | .fromV1 _ => 1 | .run _ => 0) + upgrades log

theorem noUpgrade_of_upgrades {log : List (Ev (Storage O K W) E (Call C) (Option Out))} (h : upgrades log = 0) :
    NoUpgrade log := by
  induction log with
  | nil => intro e he; cases he
  | cons x log ih =>
    simp only [upgrades] at h
    intro e he ver hv
    rcases List.mem_cons.1 he with rfl | he
    · rw [hv] at h; simp at h
    · exact ih (by omega) e he ver hv

/-- A history that starts with what version 1 left is empty or starts with an upgrade. -/
theorem first_upgrade {c : Code O K W} {M : Sys W E C Out} {st st' : Storage O K W} {b b' : Block}
    {log : List (Ev (Storage O K W) E (Call C) (Option Out))} (hnew : st.new = none)
    (h : (sys c M).Run st b log st' b') :
    (log = [] ∧ st' = st) ∨ ∃ st1 b1 ver ulog, migrate c st ver = .ok st1 ∧ b.le b1 ∧
      (sys c M).Run st1 b1 ulog st' b' ∧ upgrades log = upgrades ulog + 1 ∧ calls log = calls ulog := by
  induction h with
  | refl => exact Or.inl ⟨rfl, rfl⟩
  | step hr hb hs ih =>
    rename_i s1 s2 b1 log env call' out
    right
    rcases ih with ⟨rfl, rfl⟩ | ⟨st1, b2, ver, ulog, h1, h2, h3, h4, h5⟩
    · have hbb := hr.block_le
      cases call' with
      | run x => exact absurd hs (C84_before c M _ hnew env x _)
      | fromV1 ver =>
        simp only [sys, bind_ok, Except.ok.injEq, Prod.mk.injEq] at hs
        obtain ⟨st1, h1, rfl, rfl⟩ := hs
        exact ⟨st1, _, ver, [], h1, Block.le_trans hbb hb, .refl, rfl, rfl⟩
    · refine ⟨st1, b2, ver, _, h1, h2, .step h3 hb hs, ?_, ?_⟩
      · simp only [upgrades, h4]; omega
      · simp only [calls, h5]

/-- The same history may have begun earlier. -/
theorem run_earlier {M : Sys W E C Out} {w w' : W} {b b1 b' : Block} {log : List (Ev W E C Out)} (hb : b.le b1)
    (h : M.Run w b1 log w' b') : ∃ b'', b''.le b' ∧ M.Run w b log w' b'' := by
  induction h with
  | refl => exact ⟨b, hb, .refl⟩
  | step hr h1 hs ih =>
    obtain ⟨b2, h2, h3⟩ := ih
    exact ⟨_, Block.le_refl _, .step h3 (Block.le_trans h2 h1) hs⟩

/-- What holds of all three contracts: if the first upgrade makes the new code see `w`, then any history with one upgrade
continues the one that led to `w`. -/
theorem once {c : Code O K W} (hc : Lawful c) {M : Sys W E C Out} {st st' : Storage O K W} {b b' : Block}
    {log : List (Ev W E C Out)} {ulog : List (Ev (Storage O K W) E (Call C) (Option Out))} {w : W}
    (hkept : ∀ ver st1, migrate c st ver = .ok st1 → st1.view c = some w) (hnew : st.new = none)
    (hreach : M.Reach w b log) (h : (sys c M).Run st b ulog st' b') (hone : upgrades ulog ≤ 1) :
    (ulog = [] ∧ st' = st) ∨ ∃ w' b'' log', st'.view c = some w' ∧ b''.le b' ∧ M.Reach w' b'' (log' ++ log) ∧
      M.Run w b log' w' b'' ∧ plain log' = calls ulog := by
  rcases first_upgrade hnew h with h0 | ⟨st1, b1, ver, l, h1, h2, h3, h4, h5⟩
  · exact Or.inl h0
  · obtain ⟨w', log', q1, q2, q3, _⟩ := run_plain hc (hkept ver st1 h1) h3 (noUpgrade_of_upgrades (by omega))
    obtain ⟨b'', q4, q5⟩ := run_earlier h2 q2
    obtain ⟨b0, w0, q6, q7⟩ := hreach
    exact Or.inr ⟨w', b'', log', q1, q4, ⟨b0, w0, q6, Sys.Run.append q7 q5⟩, q5, by rw [h5, q3]⟩

/-- What holds of all three contracts: an upgrade of a contract that works already puts back the settings of version 1
and changes nothing else. -/
theorem again {c : Code O K W} (hc : Lawful c) {st st' : Storage O K W} {ver : Nat} {w : W}
    (hw : st.view c = some w) (h : migrate c st ver = .ok st') :
    ∃ o, st.old = some o ∧ st'.view c = some (c.put w (c.convert o)) := by
  obtain ⟨_, o, ho, rfl⟩ := migrate_ok.1 h
  refine ⟨o, ho, ?_⟩
  simp only [Storage.view, Option.map_eq_some_iff] at hw ⊢
  obtain ⟨k, _, rfl⟩ := hw
  exact ⟨c.convert o, rfl, by rw [hc.put_put]⟩

/-! ### The three contracts -/

theorem stakeLawful : Lawful stakeCode := ⟨fun _ _ => rfl, fun _ => rfl, fun _ _ _ => rfl⟩
theorem rewardsLawful : Lawful rewardsCode := ⟨fun _ _ => rfl, fun _ => rfl, fun _ _ _ => rfl⟩
theorem distributorLawful : Lawful distributorCode := ⟨fun _ _ => rfl, fun _ => rfl, fun _ _ _ => rfl⟩

/-- C84: the first upgrade of cw20-stake keeps every stake, its history, every claim, the balance, the hooks, the token,
the unstaking duration and the owner. -/
theorem C84_stake_kept {st st' : Storage OldStake (Cw20Stake.Config × Ownership) Cw20Stake.World}
    {w : Cw20Stake.World} (hold : StakeOld st w) {ver : Nat} (h : migrate stakeCode st ver = .ok st') :
    st'.view stakeCode = some w := by
  obtain ⟨_, o, ho, rfl⟩ := migrate_ok.1 h
  obtain ⟨⟨o', ho', q1, q2, q3⟩, h1, h2, h3, h4, h5, ⟨h6, h7⟩, _⟩ := hold
  rw [ho] at ho'
  cases ho'
  obtain ⟨⟨⟨_, _⟩, _, _, _, _, _, _⟩, _, _⟩ := w
  simp only at *
  subst q1 q2 q3
  simp [Storage.view, stakeCode, h1, h2, h3, h4, h5, h6, h7]

/-- C84: the first upgrade of the external rewards keeps the period, every reward owed, the staking contract, the token
and the owner. -/
theorem C84_rewards_kept {st st' : Storage OldRewards (Addr × ExternalRewards.Denom × Ownership) ExternalRewards.World}
    {w : ExternalRewards.World} (hold : RewardsOld st w) {ver : Nat} (h : migrate rewardsCode st ver = .ok st') :
    st'.view rewardsCode = some w := by
  obtain ⟨_, o, ho, rfl⟩ := migrate_ok.1 h
  obtain ⟨⟨o', ho', q1, q2, q3⟩, ⟨h1, h2, h3⟩, ⟨h4, h5⟩, ⟨h6, h7⟩, ⟨h8, h9, h10, h11⟩, _⟩ := hold
  rw [ho] at ho'
  cases ho'
  obtain ⟨⟨_, _, _, _, _, _, _, _, _, _⟩, _, _, _, _⟩ := w
  simp only at *
  subst q1 q2 q3
  simp [Storage.view, rewardsCode, h1, h2, h3, h4, h5, h6, h7, h8, h9, h10, h11]

/-- C84: the first upgrade of the reward distributor keeps the rate, the last payment, the staking contract, the token and
the owner. -/
theorem C84_distributor_kept {st st' : Storage OldDistributor (Addr × Nat × Addr × Ownership) RewardDistributor.World}
    {w : RewardDistributor.World} (hold : DistributorOld st w) {ver : Nat}
    (h : migrate distributorCode st ver = .ok st') : st'.view distributorCode = some w := by
  obtain ⟨_, o, ho, rfl⟩ := migrate_ok.1 h
  obtain ⟨⟨o', ho', q1, q2, q3, q4⟩, h1, ⟨h2, h3⟩, _⟩ := hold
  rw [ho] at ho'
  cases ho'
  obtain ⟨⟨_, _, _, _, _⟩, _, _⟩ := w
  simp only at *
  subst q1 q2 q3 q4
  simp [Storage.view, distributorCode, h1, h2, h3]

/-- C84, histories with one upgrade: the upgraded cw20-stake contract is at every time in a state that version 2 alone
could be in, after the calls answered since the upgrade. So everything proved of cw20-stake (C26 to C31) goes on to hold.
What is missing: histories with more upgrades, of which it is false (`C84_again_witness`). -/
theorem C84_stake_partial {st st' : Storage OldStake (Cw20Stake.Config × Ownership) Cw20Stake.World} {b b' : Block}
    {w : Cw20Stake.World} {log : List (Ev Cw20Stake.World Block Cw20Stake.Call Cw20Stake.Out)}
    {ulog : List (Ev (Storage OldStake (Cw20Stake.Config × Ownership) Cw20Stake.World) Block (Call Cw20Stake.Call)
      (Option Cw20Stake.Out))} (hold : StakeOld st w) (hreach : Cw20Stake.sys.Reach w b log)
    (h : (sys stakeCode Cw20Stake.sys).Run st b ulog st' b') (hone : upgrades ulog ≤ 1) :
    (ulog = [] ∧ st' = st) ∨ ∃ w' b'' log', st'.view stakeCode = some w' ∧ b''.le b' ∧
      Cw20Stake.sys.Reach w' b'' (log' ++ log) ∧ Cw20Stake.sys.Run w b log' w' b'' ∧ plain log' = calls ulog :=
  once stakeLawful (fun _ _ h => C84_stake_kept hold h) hold.notYet hreach h hone

/-- C84, histories with one upgrade, for the external rewards: everything proved of them (C34) goes on to hold. -/
theorem C84_rewards_partial
    {st st' : Storage OldRewards (Addr × ExternalRewards.Denom × Ownership) ExternalRewards.World} {b b' : Block}
    {w : ExternalRewards.World} {log : List (Ev ExternalRewards.World Block ExternalRewards.Call ExternalRewards.Pay)}
    {ulog : List (Ev (Storage OldRewards (Addr × ExternalRewards.Denom × Ownership) ExternalRewards.World) Block
      (Call ExternalRewards.Call) (Option ExternalRewards.Pay))} (hold : RewardsOld st w)
    (hreach : ExternalRewards.sys.Reach w b log)
    (h : (sys rewardsCode ExternalRewards.sys).Run st b ulog st' b') (hone : upgrades ulog ≤ 1) :
    (ulog = [] ∧ st' = st) ∨ ∃ w' b'' log', st'.view rewardsCode = some w' ∧ b''.le b' ∧
      ExternalRewards.sys.Reach w' b'' (log' ++ log) ∧ ExternalRewards.sys.Run w b log' w' b'' ∧
      plain log' = calls ulog :=
  once rewardsLawful (fun _ _ h => C84_rewards_kept hold h) hold.notYet hreach h hone

/-- C84, histories with one upgrade, for the reward distributor. -/
theorem C84_distributor_partial
    {st st' : Storage OldDistributor (Addr × Nat × Addr × Ownership) RewardDistributor.World} {b b' : Block}
    {w : RewardDistributor.World}
    {log : List (Ev RewardDistributor.World RewardDistributor.Env RewardDistributor.Call (Option RewardDistributor.Pay))}
    {ulog : List (Ev (Storage OldDistributor (Addr × Nat × Addr × Ownership) RewardDistributor.World)
      RewardDistributor.Env (Call RewardDistributor.Call) (Option (Option RewardDistributor.Pay)))}
    (hold : DistributorOld st w) (hreach : RewardDistributor.sys.Reach w b log)
    (h : (sys distributorCode RewardDistributor.sys).Run st b ulog st' b') (hone : upgrades ulog ≤ 1) :
    (ulog = [] ∧ st' = st) ∨ ∃ w' b'' log', st'.view distributorCode = some w' ∧ b''.le b' ∧
      RewardDistributor.sys.Reach w' b'' (log' ++ log) ∧ RewardDistributor.sys.Run w b log' w' b'' ∧
      plain log' = calls ulog :=
  once distributorLawful (fun _ _ h => C84_distributor_kept hold h) hold.notYet hreach h hone

/-- C84: a later upgrade of cw20-stake puts back the token, duration and owner of version 1, whatever has been decided
since; stakes, claims, balance and hooks stay. -/
theorem C84_stake_again {st st' : Storage OldStake (Cw20Stake.Config × Ownership) Cw20Stake.World}
    {w : Cw20Stake.World} {ver : Nat} (hw : st.view stakeCode = some w) (h : migrate stakeCode st ver = .ok st') :
    ∃ o w', st.old = some o ∧ st'.view stakeCode = some w' ∧ StakeSettings o w'.c ∧ w'.c.staked = w.c.staked ∧
      w'.c.stakedTotal = w.c.stakedTotal ∧ w'.c.claims = w.c.claims ∧ w'.c.balance = w.c.balance ∧
      w'.c.hooks = w.c.hooks ∧ w'.self = w.self ∧ w'.ledger = w.ledger := by
  obtain ⟨o, ho, hv⟩ := again stakeLawful hw h
  exact ⟨o, _, ho, hv, ⟨rfl, rfl, rfl⟩, rfl, rfl, rfl, rfl, rfl, rfl, rfl⟩

/-- C84: the same for the external rewards. -/
theorem C84_rewards_again
    {st st' : Storage OldRewards (Addr × ExternalRewards.Denom × Ownership) ExternalRewards.World}
    {w : ExternalRewards.World} {ver : Nat} (hw : st.view rewardsCode = some w)
    (h : migrate rewardsCode st ver = .ok st') :
    ∃ o w', st.old = some o ∧ st'.view rewardsCode = some w' ∧ RewardsSettings o w'.c ∧
      w' = { w with c := { w.c with staking := o.staking, token := o.token, ownership := w'.c.ownership } } := by
  obtain ⟨o, ho, hv⟩ := again rewardsLawful hw h
  exact ⟨o, _, ho, hv, ⟨rfl, rfl, rfl⟩, rfl⟩

/-- C84: the same for the reward distributor. -/
theorem C84_distributor_again
    {st st' : Storage OldDistributor (Addr × Nat × Addr × Ownership) RewardDistributor.World}
    {w : RewardDistributor.World} {ver : Nat} (hw : st.view distributorCode = some w)
    (h : migrate distributorCode st ver = .ok st') :
    ∃ o w', st.old = some o ∧ st'.view distributorCode = some w' ∧ DistributorSettings o w'.c ∧
      w'.c.lastPayment = w.c.lastPayment ∧ w'.self = w.self ∧ w'.ledger = w.ledger := by
  obtain ⟨o, ho, hv⟩ := again distributorLawful hw h
  exact ⟨o, _, ho, hv, ⟨rfl, rfl, rfl, rfl⟩, rfl, rfl, rfl⟩

end Verif.StakingUpgrade
