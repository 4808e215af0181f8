import Verif.Props.FundedDao
import Verif.Props.WholeDaoModules
/-!
# C102: examples

Members 10 and 11 stake coins with dao-voting-token-staked, from which they can unstake at once; a distributor is
created in block 5 and funded with 100 coins of another kind until block 15.
-/

namespace Verif.FundedDao.Example
open Verif Verif.Spec.FundedDao Verif.FundedDao
open Verif.WholeDao (tokenStaked C80_token_staked)

def vote0 : TokenStaked.World :=
  ⟨{ dao := 1, unstakingDuration := none, threshold := none, staked := .empty, stakedTotal := .empty, claims := []
     hooks := none }, 2, [(10, 40), (11, 60)]⟩

theorem vote_init : TokenStaked.sys.init ⟨1, 1⟩ vote0 :=
  ⟨1, none, none, by decide +kernel, .existing (by decide +kernel), by decide +kernel⟩

/-- The voting module after some calls. -/
def after (cs : List (Block × TokenStaked.Call)) : TokenStaked.World :=
  match TokenStaked.sys.play vote0 ⟨1, 1⟩ cs with
  | some (s, _, _) => s
  | none => vote0

/-- 10 stakes 40, 11 stakes 60. -/
def vote1 : TokenStaked.World := after [(⟨2, 2⟩, .stake 10 40), (⟨2, 2⟩, .stake 11 60)]

theorem reach1 : ∃ b1 l, TokenStaked.sys.Reach vote1 b1 l ∧ b1.le ⟨5, 5⟩ := by
  obtain ⟨s, b, l, hr, hp⟩ := Sys.check_run (M := TokenStaked.sys) (s := vote0) (b := ⟨1, 1⟩)
    (cs := [(⟨2, 2⟩, .stake 10 40), (⟨2, 2⟩, .stake 11 60)])
    (p := fun s b _ => decide (s = vote1 ∧ b = ⟨2, 2⟩)) (by decide +kernel)
  obtain ⟨rfl, rfl⟩ := of_decide_eq_true hp
  exact ⟨_, l, ⟨_, _, vote_init, hr⟩, ⟨by decide, by decide⟩⟩

/-- A distributor created in block 5 for a height, where the total power is `T`. -/
def dist (h T : Nat) : FundDistributor.World :=
  ⟨⟨h, .atHeight 15, T, [], []⟩, 99, [((.native 7, 50), 100)]⟩

/-- For the height of its own block. -/
def w1 : World TokenStaked.World := ⟨dist 5 100, vote1⟩

theorem init1 : Init tokenStaked ⟨5, 5⟩ w1 := ⟨⟨5, .height 10, by decide +kernel⟩, reach1⟩

/-- After the creation 10 unstakes and gives its coins to 12, who stakes them. All claim. -/
def calls1 : List (Block × Call Block TokenStaked.Call) :=
  [(⟨5, 5⟩, .vote ⟨5, 5⟩ (.exec 10 (.unstake 40))), (⟨6, 6⟩, .vote ⟨6, 6⟩ (.transfer 10 12 40)),
   (⟨6, 6⟩, .vote ⟨6, 6⟩ (.stake 12 40)), (⟨7, 7⟩, .dist (.fundNative 50 [(7, 100)])),
   (⟨15, 15⟩, .dist (.claimAll 12)), (⟨15, 15⟩, .dist (.claimAll 10)), (⟨16, 16⟩, .dist (.claimNative 10 [7])),
   (⟨16, 16⟩, .dist (.claimAll 11))]

def noneAgain (log : List (Event TokenStaked.World Block TokenStaked.Call)) : Bool :=
  log.all (fun e => match e.call with | .dist (.redistribute _ _) => false | _ => true)

theorem noneAgain_iff {log : List (Event TokenStaked.World Block TokenStaked.Call)} (h : noneAgain log = true) :
    NoneAgain log := by
  intro e he a x hc
  have := (List.all_eq_true.1 h) e he
  rw [hc] at this
  cases this

/-- **C102.** The assumptions are met: 10 and 11 get 40 and 60 of the 100, whatever happened to the stakes since, and
nobody else gets anything. -/
theorem C102_example : ∃ w b log, Init tokenStaked ⟨5, 5⟩ w1 ∧ (sys tokenStaked).Run w1 ⟨5, 5⟩ log w b ∧
    w1.dist.c.distHeight = 5 ∧ NoneAgain log ∧ received tokenStaked 10 (.native 7) log = 40 ∧
    received tokenStaked 11 (.native 7) log = 60 ∧ received tokenStaked 12 (.native 7) log = 0 ∧
    tokenStaked.weight w.vote 10 = 0 ∧ tokenStaked.weight w.vote 12 = 40 ∧
    funded tokenStaked (.native 7) log = 100 ∧ paidOut tokenStaked (.native 7) log = 100 := by
  obtain ⟨w, b, log, hr, hp⟩ := Sys.check_run (M := sys tokenStaked) (s := w1) (b := ⟨5, 5⟩) (cs := calls1)
    (p := fun w _ log => noneAgain log && decide (received tokenStaked 10 (.native 7) log = 40 ∧
      received tokenStaked 11 (.native 7) log = 60 ∧ received tokenStaked 12 (.native 7) log = 0 ∧
      tokenStaked.weight w.vote 10 = 0 ∧ tokenStaked.weight w.vote 12 = 40 ∧
      funded tokenStaked (.native 7) log = 100 ∧ paidOut tokenStaked (.native 7) log = 100)) (by decide +kernel)
  simp only [Bool.and_eq_true, decide_eq_true_eq] at hp
  exact ⟨w, b, log, init1, hr, rfl, noneAgain_iff hp.1, hp.2⟩

/-- A redistribution at a later height that has come: the assumptions of `C102_share` are met, 12 gets its share of the
second round. -/
theorem C102_example_again : ∃ w b log, (sys tokenStaked).Run w1 ⟨5, 5⟩ log w b ∧ w1.dist.c.distHeight ≤ 5 ∧
    NoneAhead log ∧ (∀ h, Heights w log h → tokenStaked.total w.vote h ≤ tokenStaked.total w.vote 5) ∧
    received tokenStaked 12 (.native 7) log = 24 := by
  obtain ⟨w, b, log, hr, hp⟩ := Sys.check_run (M := sys tokenStaked) (s := w1) (b := ⟨5, 5⟩)
    (cs := [(⟨5, 5⟩, .vote ⟨5, 5⟩ (.exec 10 (.unstake 40))), (⟨6, 6⟩, .vote ⟨6, 6⟩ (.transfer 10 12 40)),
      (⟨6, 6⟩, .vote ⟨6, 6⟩ (.stake 12 40)), (⟨7, 7⟩, .dist (.fundNative 50 [(7, 100)])),
      (⟨15, 15⟩, .dist (.claimAll 10)), (⟨16, 16⟩, .dist (.redistribute 50 7)), (⟨17, 17⟩, .dist (.claimAll 12))])
    (p := fun w _ log => log.all (fun e => (match e.call with | .dist (.redistribute _ h) => decide (h ≤ e.env.height) | _ => true) &&
      decide (tokenStaked.total w.vote e.pre.dist.c.distHeight ≤ tokenStaked.total w.vote 5)) &&
      decide (tokenStaked.total w.vote w.dist.c.distHeight ≤ tokenStaked.total w.vote 5 ∧
        received tokenStaked 12 (.native 7) log = 24)) (by decide +kernel)
  simp only [Bool.and_eq_true, decide_eq_true_eq, List.all_eq_true] at hp
  obtain ⟨h1, h2, h3⟩ := hp
  refine ⟨w, b, log, hr, by decide, ?_, ?_, h3⟩
  · intro e he a h hc
    have := (h1 e he).1
    rw [hc] at this
    exact of_decide_eq_true this
  · rintro h (rfl | ⟨e, he, rfl⟩)
    · exact h2
    · exact (h1 e he).2

/-- A claim of everything fails. -/
def claimFails (w : World TokenStaked.World) (b : Block) (a : Addr) : Bool :=
  match step tokenStaked w b (.dist (.claimAll a)) with
  | .ok _ => false
  | .error _ => true

/-- For a height that has not come yet. -/
def w2 : World TokenStaked.World := ⟨dist 1000 100, vote1⟩

theorem init2 : Init tokenStaked ⟨5, 5⟩ w2 := ⟨⟨1000, .height 10, by decide +kernel⟩, reach1⟩

/-- **C102**, the assumption that the height has come: a distributor can be created for a height in the future, for which
the voting module answers with the present stakes. 10 claims 40, unstakes and hands its coins to 12, who stakes them
and claims another 40. Of the 60 that are due to 11 only 20 are left, and its claim fails. -/
theorem C102_future_witness : ∃ w b log, Init tokenStaked ⟨5, 5⟩ w2 ∧ (sys tokenStaked).Run w2 ⟨5, 5⟩ log w b ∧
    NoneAgain log ∧ funded tokenStaked (.native 7) log = 100 ∧ received tokenStaked 10 (.native 7) log = 40 ∧
    received tokenStaked 12 (.native 7) log = 40 ∧ tokenStaked.power w.vote 11 1000 = 60 ∧
    claimFails w b 11 = true := by
  obtain ⟨w, b, log, hr, hp⟩ := Sys.check_run (M := sys tokenStaked) (s := w2) (b := ⟨5, 5⟩)
    (cs := [(⟨7, 7⟩, .dist (.fundNative 50 [(7, 100)])), (⟨15, 15⟩, .dist (.claimAll 10)),
      (⟨15, 15⟩, .vote ⟨15, 15⟩ (.exec 10 (.unstake 40))), (⟨15, 15⟩, .vote ⟨15, 15⟩ (.transfer 10 12 40)),
      (⟨15, 15⟩, .vote ⟨15, 15⟩ (.stake 12 40)), (⟨15, 15⟩, .dist (.claimAll 12))])
    (p := fun w b log => noneAgain log && decide (funded tokenStaked (.native 7) log = 100 ∧
      received tokenStaked 10 (.native 7) log = 40 ∧ received tokenStaked 12 (.native 7) log = 40 ∧
      tokenStaked.power w.vote 11 1000 = 60 ∧ claimFails w b 11 = true)) (by decide +kernel)
  simp only [Bool.and_eq_true, decide_eq_true_eq] at hp
  exact ⟨w, b, log, init2, hr, noneAgain_iff hp.1, hp.2⟩

/-- 10 stakes 40, 11 stakes 60 and leaves again before the distributor is created. -/
def vote3 : TokenStaked.World :=
  after [(⟨2, 2⟩, .stake 10 40), (⟨2, 2⟩, .stake 11 60), (⟨4, 4⟩, .exec 11 (.unstake 60))]

theorem reach3 : ∃ b1 l, TokenStaked.sys.Reach vote3 b1 l ∧ b1.le ⟨5, 5⟩ := by
  obtain ⟨s, b, l, hr, hp⟩ := Sys.check_run (M := TokenStaked.sys) (s := vote0) (b := ⟨1, 1⟩)
    (cs := [(⟨2, 2⟩, .stake 10 40), (⟨2, 2⟩, .stake 11 60), (⟨4, 4⟩, .exec 11 (.unstake 60))])
    (p := fun s b _ => decide (s = vote3 ∧ b = ⟨4, 4⟩)) (by decide +kernel)
  obtain ⟨rfl, rfl⟩ := of_decide_eq_true hp
  exact ⟨_, l, ⟨_, _, vote_init, hr⟩, ⟨by decide, by decide⟩⟩

/-- For a height before the one at which it is created. -/
def w3 : World TokenStaked.World := ⟨dist 3 40, vote3⟩

theorem init3 : Init tokenStaked ⟨5, 5⟩ w3 := ⟨⟨3, .height 10, by decide +kernel⟩, reach3⟩

/-- **C102**, the assumption on the totals: with 40 and 60 of 100 at the distribution height 10 takes all 100 coins, as
the distributor reads a total of 40 at the height of its creation; the claim of 11 fails. -/
theorem C102_totals_witness : ∃ w b log, Init tokenStaked ⟨5, 5⟩ w3 ∧ (sys tokenStaked).Run w3 ⟨5, 5⟩ log w b ∧
    w3.dist.c.distHeight ≤ 5 ∧ NoneAgain log ∧ funded tokenStaked (.native 7) log = 100 ∧
    tokenStaked.power w.vote 10 3 = 40 ∧ tokenStaked.power w.vote 11 3 = 60 ∧ tokenStaked.total w.vote 3 = 100 ∧
    received tokenStaked 10 (.native 7) log = 100 ∧ claimFails w b 11 = true := by
  obtain ⟨w, b, log, hr, hp⟩ := Sys.check_run (M := sys tokenStaked) (s := w3) (b := ⟨5, 5⟩)
    (cs := [(⟨7, 7⟩, .dist (.fundNative 50 [(7, 100)])), (⟨15, 15⟩, .dist (.claimAll 10))])
    (p := fun w b log => noneAgain log && decide (funded tokenStaked (.native 7) log = 100 ∧
      tokenStaked.power w.vote 10 3 = 40 ∧ tokenStaked.power w.vote 11 3 = 60 ∧ tokenStaked.total w.vote 3 = 100 ∧
      received tokenStaked 10 (.native 7) log = 100 ∧ claimFails w b 11 = true)) (by decide +kernel)
  simp only [Bool.and_eq_true, decide_eq_true_eq] at hp
  exact ⟨w, b, log, init3, hr, by decide, noneAgain_iff hp.1, hp.2⟩

end Verif.FundedDao.Example
