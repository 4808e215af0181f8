import Verif.Props.VetoDaoLive
import Verif.Props.WholeDaoMajorityExample
/-!
# C118 and C119: a DAO and the DAO that may veto its proposals

DAO 51 is the vetoer of DAO 1: after the vote there are 200 blocks for a veto, and DAO 51 may also execute earlier. The members
of DAO 1 vote for two proposals. The members of DAO 51 decide to veto the first and to have the second executed at once.
-/

namespace Verif.VetoDao.Example
open Verif Verif.Voting Verif.Spec Verif.Spec.VetoDao Verif.VetoDao
open Verif.WholeDao (tokenStaked C80_token_staked Env)
open Verif.WholeDao.Example (vote0 prop0 oldCore env fine readyFor)
open Verif.Spec.WholeDao (Steady Sole propLog)

/-- Messages 200 and 201 of DAO 51 are a veto and an order to execute. -/
def toOrder (n : Nat) : Option Order := if n = 200 then some (.veto 1) else if n = 201 then some (.execute 2) else none

def veto : VetoConfig := ⟨.height 200, 51, true, false⟩

def watchedProp : Single.State := { prop0 with config := { prop0.config with veto := some veto } }

def watched : WholeDao.World TokenStaked.World :=
  ⟨⟨(DaoCore.migrate oldCore [3] none).1, []⟩, watchedProp, vote0, 3, 2⟩

def watcherCore : DaoCore.State := { oldCore with me := 51, admin := 51, voting := some 52 }

def watcherProp : Single.State := { prop0 with config := { prop0.config with dao := 51 } }

def watcher : WholeDao.World TokenStaked.World :=
  ⟨⟨(DaoCore.migrate watcherCore [53] none).1, []⟩, watcherProp, vote0, 53, 52⟩

def w0 : World TokenStaked.World TokenStaked.World := ⟨watched, watcher⟩

theorem watched_init : WholeDao.Init tokenStaked ⟨1, 1⟩ watched := by
  refine ⟨by decide, ⟨⟨1, 1⟩, [], ⟨⟨1, 1⟩, _, ?_, .refl⟩, Block.le_refl _⟩,
    ⟨⟨1, 1⟩, [], ⟨⟨1, 1⟩, _, ⟨1, none, none, by decide +kernel, .existing (by decide +kernel), by decide +kernel⟩, .refl⟩,
      Block.le_refl _⟩, ⟨⟨1, 1⟩, 1, fun _ _ _ => 0, fun _ _ => 0, true⟩, watchedProp.config, .anyoneMayPropose, ⟨[], none⟩,
    rfl, rfl, by decide +kernel⟩
  exact DaoCore.Init.migrated (old := oldCore) (keys := [3]) (params := none) (by decide) (by decide)
    (by decide +kernel) (by decide) AMap.WF_nil AMap.WF_nil AMap.WF_nil rfl

theorem watcher_init : WholeDao.Init tokenStaked ⟨1, 1⟩ watcher := by
  refine ⟨by decide, ⟨⟨1, 1⟩, [], ⟨⟨1, 1⟩, _, ?_, .refl⟩, Block.le_refl _⟩,
    ⟨⟨1, 1⟩, [], ⟨⟨1, 1⟩, _, ⟨1, none, none, by decide +kernel, .existing (by decide +kernel), by decide +kernel⟩, .refl⟩,
      Block.le_refl _⟩, ⟨⟨1, 1⟩, 51, fun _ _ _ => 0, fun _ _ => 0, true⟩, watcherProp.config, .anyoneMayPropose, ⟨[], none⟩,
    rfl, rfl, by decide +kernel⟩
  exact DaoCore.Init.migrated (old := watcherCore) (keys := [53]) (params := none) (by decide) (by decide)
    (by decide +kernel) (by decide) AMap.WF_nil AMap.WF_nil AMap.WF_nil rfl

theorem past : Past tokenStaked tokenStaked .other .other w0 ⟨1, 1⟩ [] [] :=
  ⟨⟨_, ⟨_, _, watched_init, .refl⟩, Block.le_refl _⟩, _, _, _, watcher_init, rfl, .refl, Block.le_refl _⟩

/-- The members join, and those of DAO 1 vote for two proposals. -/
def before : List (Env × Call Block TokenStaked.Call Block TokenStaked.Call) :=
  [(env 2 10, .watched (.vote ⟨2, 2⟩ (.stake 10 60))),
   (env 2 10, .watcher (.vote ⟨2, 2⟩ (.stake 10 60))),
   (env 2 11, .watcher (.vote ⟨2, 2⟩ (.stake 11 40))),
   (env 5 10, .watched (.prop (.propose none 0 [7] none true))),
   (env 5 10, .watched (.prop (.propose none 0 [8] none true))),
   (env 6 10, .watched (.prop (.vote 1 .yes none))),
   (env 6 10, .watched (.prop (.vote 2 .yes none)))]

def calls : List (Env × Call Block TokenStaked.Call Block TokenStaked.Call) :=
  before ++
  [(env 7 10, .watcher (.prop (.propose none 0 [200, 201] none true))),
   (env 8 11, .watcher (.prop (.vote 1 .no none))),
   (env 8 10, .watcher (.prop (.vote 1 .yes none))),
   (env 9 99, .watcher (.prop (.execute 1 false))),
   (env 9 99, .pass false),
   (env 9 99, .pass false)]

theorem fine_steady {log : List (WholeDao.Event TokenStaked.World Block TokenStaked.Call)} (h : fine log = true) :
    Steady log ∧ Sole log := by
  simp only [Bool.and_eq_true, decide_eq_true_eq, fine, List.all_eq_true] at h
  refine ⟨fun e he => ⟨(h e he).1.1.1, (h e he).1.1.2⟩, fun e he => ⟨(h e he).1.2, ?_⟩⟩
  rintro a ⟨m, hm, _⟩
  exact (h e he).2 _ (AMap.mem_of_get hm)

def isVeto (ev : WholeDao.Event TokenStaked.World Block TokenStaked.Call) : Bool :=
  (match ev.call with | .prop (.veto id) => decide (id = 1) | _ => false) && decide (ev.env.block = ⟨9, 9⟩)

def isEarly (ev : WholeDao.Event TokenStaked.World Block TokenStaked.Call) : Bool :=
  (match ev.call with | .prop (.execute id f) => decide (id = 2) && decide (f = false) | _ => false) &&
  decide (ev.env.block = ⟨9, 9⟩) && decide (ev.out.core.length = 1)

/-- **C118.** Such DAOs: all assumptions are met, the first proposal is vetoed, and the second is executed in block 9, though
its timelock runs to block 305. -/
theorem C118_example : ∃ (w : World TokenStaked.World TokenStaked.World) (b : Block)
    (log : List (Event TokenStaked.World TokenStaked.World Block TokenStaked.Call Block TokenStaked.Call)),
    Past tokenStaked tokenStaked .other .other w0 ⟨1, 1⟩ [] [] ∧
    (sys tokenStaked tokenStaked .other .other toOrder).Run w0 ⟨1, 1⟩ log w b ∧
    Steady (watcherLog log ++ []) ∧ Sole (watcherLog log ++ []) ∧ Steady (watchedLog toOrder log ++ []) ∧
    veto.vetoer = w.watcher.core.core.me ∧
    (∃ ev ∈ watchedLog toOrder log, ev.call = .prop (.veto 1) ∧ ev.env.block = ⟨9, 9⟩) ∧
    (∃ ev ∈ watchedLog toOrder log, ev.call = .prop (.execute 2 false) ∧ ev.env.block = ⟨9, 9⟩ ∧ ev.out.core.length = 1) := by
  obtain ⟨w, b, log, hr, hp⟩ := Sys.check_run (M := sys tokenStaked tokenStaked .other .other toOrder) (s := w0) (b := ⟨1, 1⟩)
    (cs := calls) (p := fun w b log => fine (watcherLog log) && fine (watchedLog toOrder log) &&
      decide (veto.vetoer = w.watcher.core.core.me) && (watchedLog toOrder log).any isVeto &&
      (watchedLog toOrder log).any isEarly) (by decide +kernel)
  simp only [Bool.and_eq_true, decide_eq_true_eq, List.any_eq_true] at hp
  obtain ⟨⟨⟨⟨h1, h2⟩, h3⟩, ev, hev, h4⟩, ev', hev', h5⟩ := hp
  obtain ⟨f1, f2⟩ := fine_steady h1
  obtain ⟨f3, _⟩ := fine_steady h2
  refine ⟨w, b, log, past, hr, by simpa using f1, by simpa using f2, by simpa using f3, h3, ⟨ev, hev, ?_⟩, ev', hev', ?_⟩
  · simp only [isVeto, Bool.and_eq_true, decide_eq_true_eq] at h4
    obtain ⟨h4, h6⟩ := h4
    split at h4
    · rename_i id hc
      rw [of_decide_eq_true h4] at hc
      exact ⟨hc, h6⟩
    · cases h4
  · simp only [isEarly, Bool.and_eq_true, decide_eq_true_eq] at h5
    obtain ⟨⟨h5, h6⟩, h7⟩ := h5
    split at h5
    · rename_i id f hc
      simp only [Bool.and_eq_true, decide_eq_true_eq] at h5
      rw [h5.1, h5.2] at hc
      exact ⟨hc, h6, h7⟩
    · cases h5

/-- The first proposal of DAO 1, which is in its timelock in block 200, as a program. -/
def target (w : World TokenStaked.World TokenStaked.World) : Bool :=
  decide (veto.vetoer = w.watcher.core.core.me) &&
  (match w.watched.prop.proposals.get 1 with
    | some p => decide (p.veto = some veto) && decide (p.expiration = .atHeight 105) &&
        (match p.currentStatus ⟨200, 200⟩ with | .ok (.vetoTimelock _) => true | _ => false)
    | none => false)

/-- **C119.** Member 10 of DAO 51 proposes a veto in block 7, votes, and has it carried out in block 200. -/
theorem C119_example : ∃ (w w' : World TokenStaked.World TokenStaked.World) (b : Block)
    (log log' : List (Event TokenStaked.World TokenStaked.World Block TokenStaked.Call Block TokenStaked.Call))
    (p p' : Single.Proposal),
    Past tokenStaked tokenStaked .other .other w0 ⟨1, 1⟩ [] [] ∧
    (sys tokenStaked tokenStaked .other .other toOrder).Run w0 ⟨1, 1⟩ log w b ∧ log.length = 7 ∧
    w.watched.prop.proposals.get 1 = some p ∧ p.status ≠ .vetoed ∧
    (sys tokenStaked tokenStaked .other .other toOrder).Run w b log' w' ⟨200, 200⟩ ∧
    log'.map (fun ev => (ev.env, ev.call)) = [(env 200 99, .pass false), (env 200 99, .watcher (.prop (.execute 1 false))),
      (env 7 10, .watcher (.prop (.vote 1 .yes none))), (env 7 10, .watcher (.prop (.propose none 0 [200] none true)))] ∧
    w'.watched.prop.proposals.get 1 = some p' ∧ p'.status = .vetoed := by
  obtain ⟨w, b, log, hr, hp⟩ := Sys.check_run (M := sys tokenStaked tokenStaked .other .other toOrder) (s := w0) (b := ⟨1, 1⟩)
    (cs := before) (p := fun w b log => fine (watcherLog log) && readyFor .anyone w.watcher && decide (b = ⟨6, 6⟩) &&
      decide (log.length = 7) && target w) (by decide +kernel)
  simp only [Bool.and_eq_true, decide_eq_true_eq] at hp
  obtain ⟨⟨⟨⟨hf, hd⟩, rfl⟩, hlen⟩, ht⟩ := hp
  obtain ⟨hst, _⟩ := fine_steady hf
  simp only [readyFor, Bool.and_eq_true, decide_eq_true_eq] at hd
  obtain ⟨⟨⟨⟨⟨⟨⟨⟨⟨⟨⟨⟨h1, h2⟩, h3⟩, h4⟩, h5⟩, h6⟩, h7⟩, h8⟩, h9⟩, h10⟩, h11⟩, h12⟩, h13⟩ := hd
  have hen : Spec.DaoCore.Enabled w.watcher.core.core w.watcher.propAddr := by
    split at h13
    · rename_i m hm; exact ⟨m, hm, h13⟩
    · cases h13
  simp only [target, Bool.and_eq_true, decide_eq_true_eq] at ht
  obtain ⟨hme, ht⟩ := ht
  split at ht
  · rename_i p hp
    simp only [Bool.and_eq_true, decide_eq_true_eq] at ht
    obtain ⟨⟨hv, _⟩, hcur⟩ := ht
    split at hcur
    · rename_i t hc
      obtain ⟨w', log', p', hr', hl, hg, hs, _⟩ := C119_members_veto (V := tokenStaked) (decode := .other)
        (decodeWatcher := .other) (toOrder := toOrder) C80_token_staked past hr (by simpa using hst)
        ⟨h1, h2⟩ h3 h4 (by rw [h5]; decide +kernel) (by rw [h6]; decide +kernel) (e := env 7 10) ⟨by decide, by decide⟩
        (by decide) rfl (by rw [h8]; decide) (ys := [10]) (by simp) (by simp [h7])
        (by rw [h6, h9]; simp [h7, ShouldPass, Meets]) (f := env 200 99) ⟨by decide, by decide⟩ (by rw [h8]; decide)
        (by rw [h10]; simp) h11 hen hp hv hme (Or.inr ⟨t, hc⟩) (n := 200) (j := 200) rfl rfl 0
      refine ⟨w, w', _, log, log', p, p', past, hr, hlen, hp, ?_, hr', ?_, hg, hs⟩
      · intro hbad
        have h := Single.currentStatus_final hc (by rw [hbad]; trivial)
        rw [hbad] at h; cases h
      · rw [hl, h5]; rfl
    · cases hcur
  · cases ht

/-- The decision of DAO 51 to veto, voted on and not executed yet, as a program. -/
def decided (w : World TokenStaked.World TokenStaked.World)
    (log : List (Event TokenStaked.World TokenStaked.World Block TokenStaked.Call Block TokenStaked.Call)) : Bool :=
  decide (w.watcher.core.core.voting = some w.watcher.voteAddr) &&
  decide (w.watcher.prop.config.dao = w.watcher.core.core.me) &&
  (match w.watcher.prop.proposals.get 1 with
    | some q => decide (q.veto = none) && decide (q.msgs = [200]) && decide (q.threshold = .absolutePercentage .majority) &&
        decide (q.startHeight = 7) && decide (q.expiration.isExpired ⟨200, 200⟩ = true) && decide (q.status = .passed)
    | none => false) &&
  decide (lastVote 10 1 (propLog tokenStaked (watcherLog log)) = some .yes) &&
  decide (tokenStaked.total w.watcher.vote 7 = 100) && decide (tokenStaked.power w.watcher.vote 10 7 = 60) &&
  decide (w.watcher.prop.config.onlyMembersExecute = false) &&
  decide (DaoCore.isPaused w.watcher.core.core ⟨200, 200⟩ = false) &&
  (match w.watcher.core.core.modules.get w.watcher.propAddr with | some m => m.enabled | none => false)

/-- **C119.** Member 10 of DAO 51 stands by their yes to the veto, member 11 voted no: the assumptions of `C119_in_time` are
met, and a stranger carries the veto out in block 200. -/
theorem C119_example_in_time : ∃ (w w1 w2 : World TokenStaked.World TokenStaked.World) (b : Block)
    (log : List (Event TokenStaked.World TokenStaked.World Block TokenStaked.Call Block TokenStaked.Call))
    (out1 out2 : Out) (p' : Single.Proposal),
    (sys tokenStaked tokenStaked .other .other toOrder).Run w0 ⟨1, 1⟩ log w b ∧ b = ⟨8, 8⟩ ∧
    (sys tokenStaked tokenStaked .other .other toOrder).step w (env 200 99) (.watcher (.prop (.execute 1 false))) =
      .ok (w1, out1) ∧
    (sys tokenStaked tokenStaked .other .other toOrder).step w1 (env 200 99) (.pass false) = .ok (w2, out2) ∧
    w2.watched.prop.proposals.get 1 = some p' ∧ p'.status = .vetoed := by
  obtain ⟨w, b, log, hr, hp⟩ := Sys.check_run (M := sys tokenStaked tokenStaked .other .other toOrder) (s := w0) (b := ⟨1, 1⟩)
    (cs := before ++ [(env 7 10, .watcher (.prop (.propose none 0 [200] none true))),
      (env 8 11, .watcher (.prop (.vote 1 .no none))), (env 8 10, .watcher (.prop (.vote 1 .yes none)))])
    (p := fun w b log => fine (watcherLog log) && fine (watchedLog toOrder log) && decide (b = ⟨8, 8⟩) && decided w log &&
      target w) (by decide +kernel)
  simp only [Bool.and_eq_true, decide_eq_true_eq] at hp
  obtain ⟨⟨⟨⟨hf, hf'⟩, rfl⟩, hd⟩, ht⟩ := hp
  obtain ⟨hst, _⟩ := fine_steady hf
  obtain ⟨hst', _⟩ := fine_steady hf'
  simp only [decided, Bool.and_eq_true, decide_eq_true_eq] at hd
  obtain ⟨⟨⟨⟨⟨⟨⟨⟨h1, h2⟩, h3⟩, h4⟩, h5⟩, h6⟩, h7⟩, h8⟩, h9⟩ := hd
  have hen : Spec.DaoCore.Enabled w.watcher.core.core w.watcher.propAddr := by
    split at h9
    · rename_i m hm; exact ⟨m, hm, h9⟩
    · cases h9
  simp only [target, Bool.and_eq_true, decide_eq_true_eq] at ht
  obtain ⟨hme, ht⟩ := ht
  split at h3
  · rename_i q hq
    simp only [Bool.and_eq_true, decide_eq_true_eq] at h3
    obtain ⟨⟨⟨⟨⟨q1, q2⟩, q3⟩, q4⟩, q5⟩, q6⟩ := h3
    split at ht
    · rename_i p hp
      simp only [Bool.and_eq_true, decide_eq_true_eq] at ht
      obtain ⟨⟨hv, hx⟩, hcur⟩ := ht
      split at hcur
      · rename_i t hc
        have hover : ¬ TimelockOver p veto ⟨200, 200⟩ := by
          rintro ⟨t', ht', hx'⟩
          rw [hx] at ht'
          simp only [veto, Expiration.add] at ht'
          injection ht' with ht'
          subst ht'
          revert hx'
          decide
        rcases C119_in_time (V := tokenStaked) (decode := .other) (decodeWatcher := .other) (toOrder := toOrder)
          C80_token_staked C80_token_staked past hr (by simpa using hst') (by simpa using hst) ⟨h1, h2⟩ hq q1 (ys := [10])
          (by simp) (by simpa using h4)
          (by rw [q3, q4]; exact WholeDao.C87_half_decides (by simp [Spec.WholeDao.powerOf, h5, h6]))
          (n := 200) (j := 200) (id := 1) q2 rfl rfl (e := env 200 99) ⟨by decide, by decide⟩ q5 (by rw [h7]; simp) h8 hen hp hv
          hme hover (Or.inl (by rw [hx]; decide)) with hz | hz | ⟨w1, o1, w2, o2, p', z1, z2, z3, z4⟩
        · rw [q6] at hz; rcases hz with hz | hz <;> cases hz
        · exfalso
          have hnot : ∀ st, p.status = st → (st = .closed ∨ st = .vetoed ∨ st = .executed ∨ st = .executionFailed) → False := by
            intro st hs hcase
            have h := Single.currentStatus_final hc (by rw [hs]; rcases hcase with rfl | rfl | rfl | rfl <;> trivial)
            rw [hs] at h
            rcases hcase with rfl | rfl | rfl | rfl <;> cases h
          rcases hz with (hz | hz) | hz | hz | hz
          · have : p.currentStatus ⟨200, 200⟩ = .ok .rejected := hz
            rw [hc] at this; cases this
          · exact hnot _ hz (by simp)
          · exact hnot _ hz (by simp)
          · exact hnot _ hz (by simp)
          · exact hnot _ hz (by simp)
        · exact ⟨w, w1, w2, _, log, o1, o2, p', hr, rfl, z1, z2, z3, z4⟩
      · cases hcur
    · cases ht
  · cases h3

end Verif.VetoDao.Example
