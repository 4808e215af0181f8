import Verif.Props.TwoHouses
import Verif.Props.WholeDaoExample
/-!
# C113: two DAOs of two members each

The DAO of `Verif.WholeDao.Example` at 1, with an approval contract at 60, and a DAO of members 12 and 13 at 51 whose
approver contract is at 61.
-/

namespace Verif.TwoHouses.Example
open Verif Verif.Voting Verif.TwoHouses
open Verif.Spec Verif.Spec.TwoHouses
open Verif.DepositDao (whole)
open Verif.WholeDao (tokenStaked)
open Verif.WholeDao.Example (decode env)
open Verif.Spec.WholeDao (Steady)

/-- The members of the approving DAO: 12 has 30, 13 has 20. -/
def vote2 : TokenStaked.World :=
  ⟨{ dao := 51, unstakingDuration := none, threshold := none, staked := .empty, stakedTotal := .empty, claims := []
     hooks := none }, 52, [(12, 30), (13, 20)]⟩

def oldCore2 : DaoCore.State := { WholeDao.Example.oldCore with me := 51, admin := 51, voting := some 52 }

def prop2 : Single.State :=
  { WholeDao.Example.prop0 with config := { WholeDao.Example.prop0.config with dao := 51 } }

/-- The approving DAO. -/
def dao2 : WholeDao.World TokenStaked.World :=
  ⟨⟨(DaoCore.migrate oldCore2 [53] none).1, []⟩, prop2, vote2, 53, 52⟩

theorem init2 : WholeDao.Init tokenStaked ⟨1, 1⟩ dao2 := by
  refine ⟨by decide, ⟨⟨1, 1⟩, [], ⟨⟨1, 1⟩, _, ?_, .refl⟩, Block.le_refl _⟩,
    ⟨⟨1, 1⟩, [], ⟨⟨1, 1⟩, _, ⟨51, none, none, by decide +kernel, .existing (by decide +kernel), by decide +kernel⟩, .refl⟩,
      Block.le_refl _⟩, ⟨⟨1, 1⟩, 51, fun _ _ _ => 0, fun _ _ => 0, true⟩, prop2.config, .anyoneMayPropose, ⟨[], none⟩,
    rfl, rfl, by decide +kernel⟩
  exact DaoCore.Init.migrated (old := oldCore2) (keys := [53]) (params := none) (by decide) (by decide)
    (by decide +kernel) (by decide) AMap.WF_nil AMap.WF_nil AMap.WF_nil rfl

def config : PrePropose.Config := ⟨none, .anyone []⟩

def one0 : PrePropose.AWorld (whole tokenStaked decode) :=
  { base := { here := 60, pre := ⟨3, 1, config, [], none⟩, mod := WholeDao.Example.w0, bal := [], queue := [], takes := [] }
    app := ⟨51, 0, [], [], []⟩ }

def w0 : World tokenStaked tokenStaked decode decode :=
  { one := one0, here := 61, appr := ⟨53, 51, 60, [], []⟩, mod := dao2, queue := [], mirrors := [] }

theorem init : (sys tokenStaked tokenStaked decode decode).init ⟨1, 1⟩ w0 := by
  refine ⟨⟨⟨1, 1⟩, [], ⟨_, one0, ?_, .refl⟩, Block.le_refl _⟩, .init init2, rfl, rfl, rfl, rfl, rfl, by decide⟩
  exact ⟨⟨.init WholeDao.Example.init, rfl, rfl, by decide, by decide, config, by decide +kernel⟩, rfl, rfl, rfl, rfl⟩

def both (h : Nat) (a : Addr) : PrePropose.TEnv (whole tokenStaked decode) (whole tokenStaked decode) :=
  ⟨⟨env h a, [], fun _ => 0⟩, env h a⟩

abbrev Calls := List (PrePropose.TEnv (whole tokenStaked decode) (whole tokenStaked decode) ×
  PrePropose.TCall (whole tokenStaked decode) (whole tokenStaked decode))

/-- The contracts are connected; somebody submits message 8. The approving DAO decides for it with 30 of 50, then the DAO
with 60 of 100. -/
def calls : Calls :=
  [(both 2 10, .one (.base (.module (.vote ⟨2, 2⟩ (.stake 10 60))))),
   (both 2 11, .one (.base (.module (.vote ⟨2, 2⟩ (.stake 11 40))))),
   (both 2 12, .two (.vote ⟨2, 2⟩ (.stake 12 30))),
   (both 2 13, .two (.vote ⟨2, 2⟩ (.stake 13 20))),
   (both 3 3, .one (.base (.module (.prop (.replyPreProposeInstantiated 60))))),
   (both 3 53, .two (.prop (.replyPreProposeInstantiated 61))),
   (both 3 51, .one (.addHook 61)),
   (both 3 51, .one (.updateApprover 61)),
   (both 5 99, .one (.submit ⟨11, [8], none, true⟩)),
   (both 5 99, .mirror 0),
   (both 6 13, .two (.prop (.vote 1 .no none))),
   (both 6 12, .two (.prop (.vote 1 .yes none))),
   (both 7 99, .two (.prop (.execute 1 false))),
   (both 7 99, .deliver 0),
   (both 8 11, .one (.base (.module (.prop (.vote 1 .no none))))),
   (both 8 10, .one (.base (.module (.prop (.vote 1 .yes none))))),
   (both 9 99, .one (.base (.module (.prop (.execute 1 false)))))]

abbrev Log := List (Event tokenStaked tokenStaked decode decode)

/-- The DAOs keep their voting modules, and proposals are made while the contracts are connected. -/
def fine (log : Log) : Bool :=
  (oneLog log).all (fun e => decide (e.pre.core.core.voting = some e.pre.voteAddr) &&
    decide (e.pre.prop.config.dao = e.pre.core.core.me)) &&
  (twoLog log).all (fun e => decide (e.pre.core.core.voting = some e.pre.voteAddr) &&
    decide (e.pre.prop.config.dao = e.pre.core.core.me)) &&
  log.all (fun s => decide ((dao s.post).prop.count = (dao s.pre).prop.count) ||
    (decide ((dao s.pre).prop.policy = .module s.pre.one.base.here) && decide (s.pre.one.app.approver = s.pre.here)))

def sentEight (log : Log) : Bool :=
  (oneLog log).any (fun e => e.out.core.any (fun d => match d with | .send (.other n) => decide (n = 8) | _ => false))

/-- **C113.** Two such DAOs: all assumptions are met, and message 8 is sent. -/
theorem C113_example : ∃ (w : World tokenStaked tokenStaked decode decode) (b : Block) (log : Log),
    (sys tokenStaked tokenStaked decode decode).init ⟨1, 1⟩ w0 ∧
    (WholeDao.sys tokenStaked decode).Reach (dao w0) ⟨1, 1⟩ [] ∧
    (WholeDao.sys tokenStaked decode).Reach (approving w0) ⟨1, 1⟩ [] ∧
    (sys tokenStaked tokenStaked decode decode).Run w0 ⟨1, 1⟩ log w b ∧ Steady (oneLog log ++ []) ∧
    Steady (twoLog log ++ []) ∧
    (∀ s ∈ log, (dao s.post).prop.count ≠ (dao s.pre).prop.count →
      (dao s.pre).prop.policy = .module s.pre.one.base.here ∧ s.pre.one.app.approver = s.pre.here) ∧
    (∃ ev ∈ log, ∃ dev, oneEvent ev = some dev ∧ DaoCore.Sub.send (.other 8) ∈ dev.out.core) ∧
    (dao w).prop.count = 1 ∧ (approving w).prop.count = 1 ∧ (approving w).prop.policy = .module 61 := by
  obtain ⟨w, b, log, hr, hp⟩ := Sys.check_run (M := sys tokenStaked tokenStaked decode decode) (s := w0) (b := ⟨1, 1⟩)
    (cs := calls) (p := fun w b log => fine log && sentEight log && decide ((dao w).prop.count = 1 ∧
      (approving w).prop.count = 1 ∧ (approving w).prop.policy = .module 61)) (by decide +kernel)
  simp only [Bool.and_eq_true, decide_eq_true_eq] at hp
  obtain ⟨⟨hf, hs⟩, hx⟩ := hp
  simp only [fine, Bool.and_eq_true, List.all_eq_true, decide_eq_true_eq, Bool.or_eq_true] at hf
  refine ⟨w, b, log, init, ⟨_, _, WholeDao.Example.init, .refl⟩, ⟨_, _, init2, .refl⟩, hr, ?_, ?_, ?_, ?_, hx⟩
  · rw [List.append_nil]; exact hf.1.1
  · rw [List.append_nil]; exact hf.1.2
  · intro s hs hn
    rcases hf.2 s hs with h | h
    · exact absurd h hn
    · exact h
  · unfold sentEight at hs
    rw [List.any_eq_true] at hs
    obtain ⟨e, he, hs⟩ := hs
    rw [List.any_eq_true] at hs
    obtain ⟨d, hd, hs⟩ := hs
    obtain ⟨ev, hev, hev'⟩ := List.mem_filterMap.1 he
    refine ⟨ev, hev, e, hev', ?_⟩
    split at hs
    · rw [of_decide_eq_true hs] at hd; exact hd
    · cases hs

end Verif.TwoHouses.Example
