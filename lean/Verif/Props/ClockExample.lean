import Verif.Props.Clock
import Verif.Props.Cw20Stake
/-!
# C126: examples
-/

namespace Verif.Clock.Example
open Verif Verif.Voting Verif.WholeDao Verif.Spec.Clock Verif.Spec.OwnRules
open Verif.OwnRules.Example (world fine fromListB fromListB_ok fine_steady story_history tell rule)
open Verif.WholeDao.Example (oldCore prop0 vote0 env)

instance (b : Block) (d : Duration) : Decidable (Fits b d) :=
  match d with
  | .height n => inferInstanceAs (Decidable (b.height + n < 2 ^ 64))
  | .time s => inferInstanceAs (Decidable (b.time + s * 1000000000 < 2 ^ 64))

/-- **C126.** The history of `C124_example_token`, in which the members of a DAO propose, vote, execute and change a rule, is one of
the checked program, too. -/
theorem C126_example_live : ∃ (w : World TokenStaked.World) (b : Block)
    (log : List (Event TokenStaked.World Block TokenStaked.Call)), log.length = 6 ∧
    w.vote.c.unstakingDuration = some (.height 5) ∧
    (clocked (sys tokenStaked .other) daoAdds).Run (world vote0) ⟨1, 1⟩ log w b := by
  obtain ⟨w, b, log, hr, hp⟩ := Sys.check_run (M := sys tokenStaked .other) (s := world vote0) (b := ⟨1, 1⟩)
    (cs := rule 10 [.stake 10 60] (.exec 1 (.updateConfig (some (.height 5)))))
    (p := fun w b log => decide (log.length = 6) && decide (w.vote.c.unstakingDuration = some (.height 5)) &&
      log.all (fun e => (daoAdds e.pre e.call).all (fun d => decide (Fits e.env.block d)))) (by decide +kernel)
  simp only [Bool.and_eq_true, decide_eq_true_eq, List.all_eq_true] at hp
  exact ⟨w, b, log, hp.1.1, hp.1.2, C126_live hr hp.2⟩

/-- The same DAO, founded with a voting period of 585 years. -/
def stuck : World TokenStaked.World :=
  ⟨⟨(DaoCore.migrate oldCore [3] none).1, []⟩, { prop0 with config := frozen }, vote0, 3, 2⟩

theorem stuck_init : Init tokenStaked ⟨1, 1⟩ stuck := by
  refine ⟨(by decide : (3 : Nat) ≠ 1), ⟨⟨1, 1⟩, [], ⟨⟨1, 1⟩, _, ?_, .refl⟩, Block.le_refl _⟩,
    ⟨⟨1, 1⟩, [], ⟨⟨1, 1⟩, _, ⟨1, none, none, by decide +kernel, .existing (by decide +kernel), by decide +kernel⟩, .refl⟩,
      Block.le_refl _⟩,
    ⟨⟨1, 1⟩, 1, fun _ _ _ => 0, fun _ _ => 0, true⟩, frozen, .anyoneMayPropose, ⟨[], none⟩,
    rfl, rfl, (by decide +kernel : Single.instantiate _ frozen .anyoneMayPropose = .ok (stuck.prop, ⟨[], none⟩))⟩
  exact DaoCore.Init.migrated (old := oldCore) (keys := [3]) (params := none) (by decide) (by decide)
    (by decide +kernel) (by decide) AMap.WF_nil AMap.WF_nil AMap.WF_nil rfl

/-- **C126, the full statement fails.** A DAO can be founded like this, its members can join it, and however they go on, it never
does anything. -/
theorem C126_dao_frozen_witness : ∃ (w0 w : World TokenStaked.World) (b : Block)
    (log : List (Event TokenStaked.World Block TokenStaked.Call)),
    Init tokenStaked ⟨1, 1⟩ w0 ∧ (clocked (sys tokenStaked .other) daoAdds).Run w0 ⟨1, 1⟩ log w b ∧ log.length = 2 ∧
    tokenStaked.weight w.vote 10 = 60 ∧ tokenStaked.totalWeight w.vote = 100 ∧
    ∀ toCall w' b' log', History tokenStaked .other tokenCaller toCall w0 w' ⟨1, 1⟩ b' (log' ++ log) →
      (clocked (sys tokenStaked .other) daoAdds).Run w b log' w' b' →
      w'.prop.proposals = [] ∧ w'.prop.config = w0.prop.config ∧ ∀ e ∈ log', e.out.core = [] := by
  obtain ⟨w, b, log, hr, hp⟩ := Sys.check_run (M := clocked (sys tokenStaked .other) daoAdds) (s := stuck) (b := ⟨1, 1⟩)
    (cs := [(env 2 10, .vote ⟨2, 2⟩ (.stake 10 60)), (env 3 11, .vote ⟨3, 3⟩ (.stake 11 40))])
    (p := fun w b log => decide (log.length = 2) && decide (tokenStaked.weight w.vote 10 = 60) &&
      decide (tokenStaked.totalWeight w.vote = 100)) (by decide +kernel)
  simp only [Bool.and_eq_true, decide_eq_true_eq] at hp
  refine ⟨stuck, w, b, log, stuck_init, hr, hp.1.1, hp.1.2, hp.2, fun toCall w' b' log' hh hr' => ?_⟩
  obtain ⟨h1, h2, h3⟩ := C126_dao_frozen C80_token_staked hh (hr.append hr') ages_endless
  exact ⟨h1, h2, fun e he => h3 e (List.mem_append_left _ he)⟩

/-- Such a history goes on: members stake and burn, nothing else. -/
theorem C126_example_frozen : ∃ (w : World TokenStaked.World) (b : Block)
    (log : List (Event TokenStaked.World Block TokenStaked.Call)), log.length = 3 ∧
    History tokenStaked .other tokenCaller (tell (.vote (.exec 1 (.updateConfig none)))) stuck w ⟨1, 1⟩ b log ∧
    (clocked (sys tokenStaked .other) daoAdds).Run stuck ⟨1, 1⟩ log w b := by
  obtain ⟨w, b, log, hr, hp⟩ := Sys.check_run (M := clocked (sys tokenStaked .other) daoAdds) (s := stuck) (b := ⟨1, 1⟩)
    (cs := [(env 2 10, .vote ⟨2, 2⟩ (.stake 10 60)), (env 3 11, .vote ⟨3, 3⟩ (.stake 11 40)),
      (env 9 10, .vote ⟨9, 9⟩ (.exec 10 (.unstake 5)))])
    (p := fun w b log => decide (log.length = 3) && fine log &&
      fromListB tokenCaller (tell (.vote (.exec 1 (.updateConfig none)))) log) (by decide +kernel)
  simp only [Bool.and_eq_true, decide_eq_true_eq] at hp
  exact ⟨w, b, log, hp.1.1, ⟨stuck_init, rfl, clocked_run hr, (fine_steady hp.1.2).1, (fine_steady hp.1.2).2, fromListB_ok hp.2⟩,
    hr⟩

/-- A pool of cw20-stake with an unstaking period of 585 years. -/
def pool : Cw20Stake.World := { Cw20Stake.exW with c := { Cw20Stake.exW.c with config := ⟨8, some ages⟩ } }

/-- **C126.** Such a pool can be made, and address 2 can stake in it; by `C126_locked_witness` it cannot unstake. -/
theorem C126_example_locked : ∃ w b log, (clocked Cw20Stake.sys cw20StakeAdds).Reach w b log ∧ w.c.stakedOf 2 = 100 ∧
    w.c.config.unstakingDuration = some ages ∧
    ∀ b' n r, (clocked Cw20Stake.sys cw20StakeAdds).step w b' (.exec 2 (.unstake n)) ≠ .ok r := by
  obtain ⟨w, b, log, hr, hp⟩ := Sys.check_run (M := clocked Cw20Stake.sys cw20StakeAdds) (s := pool) (b := ⟨1, 1⟩)
    (cs := [(⟨2, 2⟩, .send 2 100 .stake)])
    (p := fun w _ _ => decide (w.c.stakedOf 2 = 100) && decide (w.c.config.unstakingDuration = some ages)) (by decide +kernel)
  simp only [Bool.and_eq_true, decide_eq_true_eq] at hp
  refine ⟨w, b, log, ⟨⟨1, 1⟩, pool, ⟨some 1, 8, some ages, by decide +kernel, by decide +kernel, by decide +kernel⟩, hr⟩, hp.1, hp.2,
    fun b' n r h => ?_⟩
  exact C126_endless ages_endless ((C126_cw20_stake_partial.1 h).2 2 n ages rfl hp.2)

/-- A proposal with a timelock of 585 years that everybody has voted for. -/
def passed : Single.Proposal :=
  { content := 0, proposer := 10, startHeight := 5, minVotingPeriod := none, expiration := .atTime 100,
    threshold := .absoluteCount 60, totalPower := 100, msgs := [7], status := .opened, votes := ⟨100, 0, 0⟩,
    allowRevoting := false, veto := some ⟨ages, 7, false, false⟩ }

/-- **C126.** It has passed, from the start on, and has no status. -/
theorem C126_example_timelock (b : Block) : passed.isPassed b = .ok true ∧ ∀ s, singleStatus passed b ≠ .ok s := by
  have h1 : passed.isPassed b = .ok true := rfl
  exact ⟨h1, single_stuck rfl rfl rfl ages_endless h1⟩

end Verif.Clock.Example
