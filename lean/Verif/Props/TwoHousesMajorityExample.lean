import Verif.Props.TwoHousesMajority
import Verif.Props.TwoHousesExample
/-!
# C114: two DAOs of two members each, and a deposit

The DAOs of `Verif.TwoHouses.Example`, with a deposit of 5 of the cw20 token 30 that comes back if the proposal passes.
-/

namespace Verif.TwoHouses.Example
open Verif Verif.Voting Verif.TwoHouses
open Verif.Spec Verif.Spec.TwoHouses
open Verif.DepositDao (whole)
open Verif.WholeDao (tokenStaked)
open Verif.WholeDao.Example (decode env)
open Verif.Spec.WholeDao (Steady)

def configD : PrePropose.Config := ⟨some ⟨.cw20 30, 5, .onlyPassed⟩, .anyone []⟩

def oneD : PrePropose.AWorld (whole tokenStaked decode) :=
  { base := { here := 60, pre := ⟨3, 1, configD, [], none⟩, mod := WholeDao.Example.w0, bal := [((.cw20 30, 99), 50)]
              queue := [], takes := [] }
    app := ⟨51, 0, [], [], []⟩ }

def wD : World tokenStaked tokenStaked decode decode := { w0 with one := oneD }

theorem initD : (sys tokenStaked tokenStaked decode decode).init ⟨1, 1⟩ wD := by
  refine ⟨⟨⟨1, 1⟩, [], ⟨_, oneD, ?_, .refl⟩, Block.le_refl _⟩, .init init2, rfl, rfl, rfl, rfl, rfl, by decide⟩
  exact ⟨⟨.init WholeDao.Example.init, rfl, rfl, by decide, by decide, configD, by decide +kernel⟩, rfl, rfl, rfl, rfl⟩

/-- What `C114_members_act` supposes of a DAO, as a program. -/
def readyDao (policy : CreationPolicy) (total : Nat) (a : Addr) (weight : Nat) (last : Block)
    (w : WholeDao.World TokenStaked.World) : Bool :=
  decide (w.core.core.voting = some w.voteAddr) && decide (w.prop.config.dao = w.core.core.me) &&
  decide (w.prop.policy = policy) && decide (w.prop.config.veto = none) && decide (w.prop.count = 0) &&
  decide (tokenStaked.totalWeight w.vote = total) && decide (tokenStaked.weight w.vote a = weight) &&
  decide (w.prop.config.maxVotingPeriod = .height 100) &&
  decide (w.prop.config.threshold = .absolutePercentage .majority) &&
  decide (w.prop.config.onlyMembersExecute = false) && decide (DaoCore.isPaused w.core.core last = false) &&
  decide (w.core.stack = []) && (match w.core.core.modules.get w.propAddr with | some m => m.enabled | none => false)

/-- What `C114_members_act` supposes of the rest. -/
def readyRest (w : World tokenStaked tokenStaked decode decode) : Bool :=
  decide (w.one.base.here = 60) && decide (w.here = 61) && decide (w.one.app.approver = 61) &&
  decide (Hooks.items w.one.base.pre.hooks = [61]) &&
  decide (w.queue = [] ∧ w.mirrors = [] ∧ w.one.base.queue = [] ∧ w.one.base.takes = []) &&
  decide (w.one.app.current = 0) && decide (w.one.base.pre.config = configD) && decide (w.one.base.bal = oneD.base.bal)

/-- **C114.** In block 5, 99, a member of neither DAO, submits for the deposit and 12 of the approving DAO votes, in block
200 the DAO has the proposal and its member 10 votes, and in block 400 it sends message 8; 99 has the deposit back. -/
theorem C114_example : ∃ (w w' : World tokenStaked tokenStaked decode decode) (b : Block) (log log' : Log),
    (sys tokenStaked tokenStaked decode decode).Run wD ⟨1, 1⟩ log w b ∧ Steady (oneLog log ++ []) ∧
    Steady (twoLog log ++ []) ∧
    (sys tokenStaked tokenStaked decode decode).Run w b log' w' ⟨400, 400⟩ ∧
    log'.map (fun ev => (ev.env, ev.call)) = [
      (both 400 98, .one (.base (.deliver 0))), (both 400 98, .one (.base (.module (.prop (.execute 1 false))))),
      (both 200 10, .one (.base (.module (.prop (.vote 1 .yes none))))), (both 200 98, .deliver 0),
      (both 200 98, .two (.prop (.execute 1 false))), (both 5 12, .two (.prop (.vote 1 .yes none))),
      (both 5 99, .mirror 0), (both 5 99, .one (.base (.take 0))), (both 5 99, .one (.submit ⟨0, [8], none, true⟩))] ∧
    (dao w').core.stack = [.send (.other 8)] ∧ (approving w').core.stack = [] ∧
    getD0 w'.one.base.bal (.cw20 30, 99) = 50 := by
  obtain ⟨w, b, log, hr, hp⟩ := Sys.check_run (M := sys tokenStaked tokenStaked decode decode) (s := wD) (b := ⟨1, 1⟩)
    (cs := calls.take 8) (p := fun w b log => fine log && readyDao (.module 60) 100 10 60 ⟨400, 400⟩ (dao w) &&
      readyDao (.module 61) 50 12 30 ⟨200, 200⟩ (approving w) && readyRest w && decide (b = ⟨3, 3⟩)) (by decide +kernel)
  simp only [Bool.and_eq_true, decide_eq_true_eq] at hp
  obtain ⟨⟨⟨⟨hf, hd1⟩, hd2⟩, hd⟩, rfl⟩ := hp
  simp only [fine, Bool.and_eq_true, List.all_eq_true, decide_eq_true_eq, Bool.or_eq_true] at hf
  have hst1 : Steady (oneLog log ++ []) := by rw [List.append_nil]; exact hf.1.1
  have hst2 : Steady (twoLog log ++ []) := by rw [List.append_nil]; exact hf.1.2
  simp only [readyDao, readyRest, Bool.and_eq_true, decide_eq_true_eq] at hd1 hd2 hd
  obtain ⟨⟨⟨⟨⟨⟨⟨⟨⟨⟨⟨⟨h1, h2⟩, h3⟩, h4⟩, h5⟩, h6⟩, h7⟩, h8⟩, h9⟩, h10⟩, h11⟩, h12⟩, h13⟩ := hd1
  obtain ⟨⟨⟨⟨⟨⟨⟨⟨⟨⟨⟨⟨k1, k2⟩, k3⟩, k4⟩, k5⟩, k6⟩, k7⟩, k8⟩, k9⟩, k10⟩, k11⟩, k12⟩, k13⟩ := hd2
  obtain ⟨⟨⟨⟨⟨⟨⟨g1, g2⟩, g3⟩, g4⟩, g5⟩, g6⟩, g7⟩, g8⟩ := hd
  have hen1 : DaoCore.Enabled (dao w).core.core (dao w).propAddr := by
    split at h13
    · rename_i m hm; exact ⟨m, hm, h13⟩
    · cases h13
  have hen2 : DaoCore.Enabled (approving w).core.core (approving w).propAddr := by
    split at k13
    · rename_i m hm; exact ⟨m, hm, k13⟩
    · cases k13
  have hbal : ∀ q, getD0 w.one.base.bal (.cw20 30, q) ≤ 50 := by
    intro q
    rw [g8]
    by_cases hq : q = 99
    · subst hq; decide
    · have : getD0 oneD.base.bal (.cw20 30, q) = 0 := by
        simp only [oneD, getD0, AMap.get]
        rw [if_neg (by intro h; injection h with _ h; exact hq h.symm)]
        rfl
      omega
  obtain ⟨w', log', hr', hl, hstk1, hstk2, _, _, _, _, _, _, _, _, hdep⟩ := C114_members_act WholeDao.C80_token_staked
    WholeDao.C80_token_staked initD ⟨_, _, WholeDao.Example.init, .refl⟩ (Block.le_refl _) ⟨_, _, init2, .refl⟩
    (Block.le_refl _) hr hst1 hst2 ⟨h1, h2⟩ ⟨k1, k2⟩ (by rw [g1]; exact h3) (by rw [g2]; exact k3) (by rw [g2]; exact g3)
    (by rw [g4, g2]; simp) g5 h4 k4 (by rw [h5]; decide +kernel) (by rw [k5]; decide +kernel) (by rw [g6]; decide +kernel)
    (by rw [h6]; decide +kernel) (by rw [k6]; decide +kernel) (e := env 5 99) ⟨by decide, by decide⟩ (by decide) rfl
    (by rw [k8]; decide) (by rw [g1, g2]; decide) (fun _ => 0) (by rw [g7]; simp [configD, Spec.PrePropose.MaySubmit])
    (by intro d hd; rw [g7] at hd; injection hd with hd; subst hd; rw [g8]; decide)
    (by
      intro d hd p q _
      rw [g7] at hd; injection hd with hd; subst hd
      have := hbal p; have := hbal q
      have : 100 < U128 := by decide +kernel
      simp only; omega)
    (zs := [12]) (by simp) (by simp [k7]) (by rw [g2]; simp) (by rw [k6, k9]; simp [k7, ShouldPass, Meets])
    (f := env 200 98) ⟨by decide, by decide⟩ rfl (by rw [k8]; decide) (by rw [h8]; decide) (by rw [g2]; decide)
    (by rw [k10]; simp) k11 hen2
    (ys := [10]) (by simp) (by simp [h7]) (by rw [g1, g2]; simp) (by rw [h6, h9]; simp [h7, ShouldPass, Meets])
    (g := env 400 98) ⟨by decide, by decide⟩ (by rw [h8]; decide) (by rw [g1, g2]; decide)
    (by rw [h10]; simp) h11 hen1 0 [8]
  refine ⟨w, w', _, log, log', hr, hst1, hst2, hr', ?_, ?_, ?_, ?_⟩
  · rw [hl, h5, k5, g7]; rfl
  · rw [hstk1, h12]; rfl
  · rw [hstk2, k12]
  · have := (hdep ⟨.cw20 30, 5, .onlyPassed⟩ (by rw [g7]; rfl)).2 99 (by rw [g1]; decide)
    rw [g8] at this
    have hb : getD0 oneD.base.bal (.cw20 30, 99) = 50 := by decide
    simp only [env, hb] at this
    simpa using this

end Verif.TwoHouses.Example
