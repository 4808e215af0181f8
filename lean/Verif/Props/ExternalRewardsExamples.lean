import Verif.Props.ExternalRewards
/-!
# C34: concrete histories and the limits of the contract
-/

namespace Verif.ExternalRewards
open Verif.Spec.ExternalRewards

/-- Owner 1 holds `n` reward tokens, 7 has staked 10. -/
def w0 (n : Nat) : World :=
  { c := { ownership := { owner := some 1 }, staking := 50, token := .cw20 60, finish := 0, rate := 0,
           duration := 10, perToken := 0, lastUpdate := 0, pending := [], userPerToken := [] }
    self := 99, ledger := [(1, n)],
    stakes := (Snap.empty).save 7 10 1, totals := (Snap.empty).save () 10 1 }

theorem w0_init (n : Nat) (hn : n < U128) : sys.init ⟨5, 5⟩ (w0 n) := by
  have h1 : instantiate (some 1) 50 (.cw20 60) 10 = .ok (w0 0).c := by decide +kernel
  have h2 : ((w0 0).stakes.cur.map Prod.fst).Nodup := by decide +kernel
  have h3 : (w0 0).total = Verif.total (w0 0).stakes.cur ∧ (w0 0).total < U128 := by decide +kernel
  refine ⟨⟨some 1, 50, .cw20 60, 10, h1⟩, h2, h3.1, h3.2, ?_, ?_, by simpa [w0, Verif.total] using hn⟩
  · intro e he; simp [w0, Snap.save, Snap.empty, AMap.get, AMap.set] at he; subst he; simp
  · intro e he; simp [w0, Snap.save, Snap.empty, AMap.get, AMap.set] at he; subst he; simp

/-- A history with two stakers, stake changes within a block, a claim and a second period. -/
def calls : List (Block × Call) :=
  [(⟨10, 10⟩, .fund 1 1000), (⟨12, 12⟩, .setStake 8 30 true), (⟨12, 12⟩, .setStake 8 20 true),
   (⟨15, 15⟩, .exec 7 .claim), (⟨25, 25⟩, .setStake 7 0 true), (⟨30, 30⟩, .fund 1 500),
   (⟨31, 31⟩, .exec 8 .claim)]

/-- The calls succeed. Staker 7 gets the whole reward of two blocks (200) and a third of that of eight
blocks (266 + 2/3), staker 8 the rest and the first block of the second period. -/
theorem calls_play :
    (match sys.play (w0 2000) ⟨5, 5⟩ calls with
      | some (w, b, log) => decide (b = ⟨31, 31⟩ ∧ funded log = 1500 ∧ received 7 log = 300 ∧ received 8 log = 583 ∧
          queryPending w.c b (w.view b) 7 = .ok 166 ∧ queryPending w.c ⟨40, 40⟩ (w.view ⟨40, 40⟩) 8 = .ok 450 ∧
          share w log 7 31 = 1400 / 3 ∧ share w log 8 31 = 1750 / 3)
      | none => false) = true := by decide +kernel

/-- The history above is one the theorems speak about. -/
theorem calls_reach : ∃ w b log, sys.Reach w b log ∧ funded log = 1500 ∧ SCALE * funded log < U256 := by
  have h := calls_play
  cases hp : sys.play (w0 2000) ⟨5, 5⟩ calls with
  | none => rw [hp] at h; simp at h
  | some r =>
    obtain ⟨w, b, log⟩ := r
    rw [hp] at h
    simp only [decide_eq_true_eq] at h
    refine ⟨w, b, log, ⟨⟨5, 5⟩, w0 2000, w0_init _ (by decide +kernel), Sys.play_run hp⟩, h.2.1, ?_⟩
    rw [h.2.1]; decide +kernel

/-- The comment in `get_reward_per_token` that the product cannot overflow is wrong: a single funding of
`2^127` tokens, which the contract accepts, makes every later claim fail, and every stake change the
staking contract announces, so the stakers cannot unstake. The bound in `C34_live` is needed. -/
theorem C34_overflow_witness :
    ∃ w b log, sys.Reach w b log ∧ funded log = 2 ^ 127 ∧
      queryPending w.c ⟨20, 20⟩ (w.view ⟨20, 20⟩) 7 = .error .overflow ∧
      step w ⟨20, 20⟩ (.exec 7 .claim) = .error .overflow ∧
      step w ⟨20, 20⟩ (.setStake 7 0 true) = .error .overflow := by
  have h : (match sys.play (w0 (2 ^ 127)) ⟨5, 5⟩ [(⟨10, 10⟩, .fund 1 (2 ^ 127))] with
      | some (w, _, log) => decide (funded log = 2 ^ 127 ∧
          queryPending w.c ⟨20, 20⟩ (w.view ⟨20, 20⟩) 7 = .error .overflow ∧
          step w ⟨20, 20⟩ (.exec 7 .claim) = .error .overflow ∧
          step w ⟨20, 20⟩ (.setStake 7 0 true) = .error .overflow)
      | none => false) = true := by decide +kernel
  cases hp : sys.play (w0 (2 ^ 127)) ⟨5, 5⟩ [(⟨10, 10⟩, .fund 1 (2 ^ 127))] with
  | none => rw [hp] at h; simp at h
  | some r =>
    obtain ⟨w, b, log⟩ := r
    rw [hp] at h
    simp only [decide_eq_true_eq] at h
    exact ⟨w, b, log, ⟨⟨5, 5⟩, _, w0_init _ (by decide +kernel), Sys.play_run hp⟩, h⟩

/-- The system without the assumption that the contract stays registered with the staking contract. -/
def sysUnhooked : Sys World Block Call Pay := { sys with step := step }

/-- `C34_bound` needs the contract to stay registered with the staking contract: an address that stakes
while it is not gets the reward of all blocks since the contract's first funding, and the claims exceed
the funding. -/
theorem C34_unhooked_witness :
    ∃ w b log, sysUnhooked.Reach w b log ∧ funded log = 1000 ∧
      queryPending w.c b (w.view b) 7 = .ok 1000 ∧ queryPending w.c b (w.view b) 8 = .ok 9000 := by
  have h : (match sysUnhooked.play (w0 2000) ⟨5, 5⟩ [(⟨10, 10⟩, .fund 1 1000), (⟨25, 25⟩, .exec 1 (.updateRewardDuration 10)),
        (⟨30, 30⟩, .setStake 7 10 true), (⟨31, 31⟩, .setStake 8 90 false), (⟨32, 32⟩, .transfer 1 2 1)] with
      | some (w, b, log) => decide (funded log = 1000 ∧
          queryPending w.c b (w.view b) 7 = .ok 1000 ∧ queryPending w.c b (w.view b) 8 = .ok 9000)
      | none => false) = true := by decide +kernel
  cases hp : sysUnhooked.play (w0 2000) ⟨5, 5⟩ [(⟨10, 10⟩, .fund 1 1000), (⟨25, 25⟩, .exec 1 (.updateRewardDuration 10)),
        (⟨30, 30⟩, .setStake 7 10 true), (⟨31, 31⟩, .setStake 8 90 false), (⟨32, 32⟩, .transfer 1 2 1)] with
  | none => rw [hp] at h; simp at h
  | some r =>
    obtain ⟨w, b, log⟩ := r
    rw [hp] at h
    simp only [decide_eq_true_eq] at h
    exact ⟨w, b, log, ⟨⟨5, 5⟩, _, w0_init _ (by decide +kernel), Sys.play_run hp⟩, h⟩

end Verif.ExternalRewards
