import Verif.Props.SubDao
import Verif.Props.FullDaoExample
/-!
# C96: a DAO and its SubDAO, from their births

DAO 1 is the admin of DAO 51. The members of DAO 51 decide to send message 8 and to pause their DAO for long. The members of
DAO 1 decide to strike DAO 51 off the list of SubDAOs, to have it send message 9, and to have it replace its proposal module.
All this is done, although DAO 51 is paused and not listed any more.
-/

namespace Verif.SubDao.Example
open Verif
open Verif.Voting hiding Vote Votes
open Verif.Spec.SubDao Verif.SubDao
open Verif.Spec.FullDao (Steady Governed TotalsOfHeight)
open Verif.Spec.DaoCore (Enabled Paused)
open Verif.WholeDao (tokenStaked)
open Verif.WholeCondorcet (tokenStakedNow C94_token_staked)
open Verif.FullDao.Example (vote0 single env fine fine_steady fine_governed sent enabled enabled_iff keepsDao)

/-- Message 70 of the parent strikes the SubDAO off its list. -/
def decode (n : Nat) : DaoCore.CosmosMsg := if n = 70 then .toSelf (.updateSubDaos [] [51]) else .other n

/-- Message 60 of the SubDAO pauses it. -/
def decodeChild (n : Nat) : DaoCore.CosmosMsg := if n = 60 then .toSelf (.pause (.height 1000)) else .other n

/-- Messages 100 and 101 of the parent are admin messages for the SubDAO. -/
def toChild (n : Nat) : Option DaoCore.Msg :=
  if n = 100 then some (.executeAdminMsgs [.other 9]) else
  if n = 101 then some (.executeAdminMsgs [.toSelf (.updateProposalModules [33] [53])]) else none

def core (me : Addr) (admin : Option Addr) : DaoCore.World :=
  match DaoCore.instantiate me ⟨0, true, true⟩ admin 20 [30] [] with
  | .ok (s, out) => ⟨s, out⟩
  | .error _ => ⟨{ me := 1, admin := 1, nominated := none, config := ⟨0, true, true⟩, paused := none, voting := none
                   modules := [], active := 0, total := 0, items := [], cw20s := [], cw721s := [], subDaos := [] }, []⟩

theorem core_init (me : Addr) (admin : Option Addr) : DaoCore.Init ⟨1, 1⟩ (core me admin) :=
  DaoCore.Init.new (me := me) (config := ⟨0, true, true⟩) (admin := admin) (voting := 20) (proposals := [30])
    (items := []) rfl

/-- The two DAOs when they have just been created. -/
def w0 : World TokenStaked.World TokenStaked.World := ⟨⟨core 1 none, [], vote0, 2⟩, ⟨core 51 (some 1), [], vote0, 52⟩⟩

theorem init : Init tokenStaked tokenStaked ⟨1, 1⟩ w0 :=
  ⟨⟨rfl, ⟨⟨1, 1⟩, [], ⟨⟨1, 1⟩, _, core_init _ _, .refl⟩, Block.le_refl _⟩, FullDao.Example.init.2.2⟩,
    ⟨rfl, ⟨⟨1, 1⟩, [], ⟨⟨1, 1⟩, _, core_init _ _, .refl⟩, Block.le_refl _⟩, FullDao.Example.init.2.2⟩,
    by decide, by decide, by decide⟩

def calls : List (FullDao.Env × Call Block TokenStaked.Call Block TokenStaked.Call) :=
  [(env 1 99, .parent (.core (.deliver ⟨2, []⟩))),
   (env 1 99, .parent (.spawn 3 single)),
   (env 1 99, .parent (.core (.deliver ⟨3, []⟩))),
   (env 1 99, .child (.core (.deliver ⟨52, []⟩))),
   (env 1 99, .child (.spawn 53 single)),
   (env 1 99, .child (.core (.deliver ⟨53, []⟩))),
   (env 2 10, .parent (.vote ⟨2, 2⟩ (.stake 10 60))),
   (env 2 11, .child (.vote ⟨2, 2⟩ (.stake 11 40))),
   -- the members of the SubDAO decide
   (env 5 11, .child (.single 53 (.propose none 0 [8, 60] none true))),
   (env 6 11, .child (.single 53 (.vote 1 .yes none))),
   (env 7 99, .child (.single 53 (.execute 1 false))),
   (env 7 99, .child (.core (.deliver ⟨0, []⟩))),
   (env 7 99, .child (.core (.deliver ⟨0, []⟩))),
   -- the members of the parent decide
   (env 8 10, .parent (.single 3 (.propose none 0 [70, 100, 101] none true))),
   (env 9 10, .parent (.single 3 (.vote 1 .yes none))),
   (env 9 99, .parent (.single 3 (.execute 1 false))),
   (env 9 99, .parent (.core (.deliver ⟨0, []⟩))),
   (env 9 99, .pass),
   (env 9 99, .child (.core (.deliver ⟨0, []⟩))),
   (env 9 99, .pass),
   (env 9 99, .child (.core (.deliver ⟨0, []⟩))),
   (env 9 99, .child (.spawn 54 single)),
   (env 9 99, .child (.core (.deliver ⟨54, []⟩)))]

/-- The tests for a DAO with an outside admin, as a program. -/
def childFine {S E C : Type} (log : List (FullDao.Event S E C)) : Bool :=
  log.all (fun e =>
    e.pre.mods.all (fun m => decide (e.pre.core.core.voting = some e.pre.voteAddr) && keepsDao e.pre.core.core.me m.2) &&
    e.pre.core.core.modules.all (fun m => (e.pre.mods.get m.1).isSome))

theorem child_steady {S E C : Type} {log : List (FullDao.Event S E C)} (h : childFine log = true) : Steady log := by
  simp only [Bool.and_eq_true, decide_eq_true_eq, childFine, List.all_eq_true] at h
  intro e he a m hm
  obtain ⟨h1, h2⟩ := (h e he).1 (a, m) (AMap.mem_of_get hm)
  refine ⟨h1, ?_⟩
  cases m with
  | single s => simpa [keepsDao, Spec.FullDao.KeepsDao] using h2
  | multi s => simpa [keepsDao, Spec.FullDao.KeepsDao] using h2
  | condorcet s => trivial

theorem child_own {S E C : Type} {log : List (FullDao.Event S E C)} (h : childFine log = true) : OwnModules log := by
  simp only [Bool.and_eq_true, childFine, List.all_eq_true] at h
  rintro e he a ⟨m, hm, _⟩
  exact Option.isSome_iff_exists.1 ((h e he).2 (a, m) (AMap.mem_of_get hm))

def keeps {S T E C F D : Type} (log : List (Event S T E C F D)) : Bool :=
  log.all (fun e => match told toChild e with | some (.nominateAdmin _) => false | _ => true)

theorem keeps_admin {S T E C F D : Type} {log : List (Event S T E C F D)} (h : keeps log = true) : KeepsAdmin toChild log := by
  simp only [keeps, List.all_eq_true] at h
  intro e he n hn
  have := h e he
  rw [hn] at this
  cases this

def childSent {S T E C F D : Type} (k : Nat) (log : List (Event S T E C F D)) : Bool :=
  log.any (fun e => e.out.child.core.any (fun d => match d with | .send (.other n) => decide (n = k) | _ => false))

theorem childSent_mem {S T E C F D : Type} {k : Nat} {log : List (Event S T E C F D)} (hs : childSent k log = true) :
    ∃ ev ∈ log, DaoCore.Sub.send (.other k) ∈ ev.out.child.core := by
  unfold childSent at hs
  rw [List.any_eq_true] at hs
  obtain ⟨e, he, hs⟩ := hs
  rw [List.any_eq_true] at hs
  obtain ⟨d, hd, hs⟩ := hs
  refine ⟨e, he, ?_⟩
  split at hs
  · rw [of_decide_eq_true hs] at hd; exact hd
  · cases hs

/-- **C96.** Two such DAOs: all assumptions are met, the SubDAO has sent what its members decided and what the members of the
parent decided, its first module is disabled and the new one is enabled, and it is paused. -/
theorem C96_example : ∃ (w : World TokenStaked.World TokenStaked.World) (b : Block)
    (log : List (Event TokenStaked.World TokenStaked.World Block TokenStaked.Call Block TokenStaked.Call)),
    Init tokenStaked tokenStaked ⟨1, 1⟩ w0 ∧
    (sys tokenStaked tokenStakedNow tokenStaked tokenStakedNow decode decodeChild toChild).Run w0 ⟨1, 1⟩ log w b ∧
    KeepsAdmin toChild log ∧
    Steady (parentLog log) ∧ Governed (parentLog log) ∧ TotalsOfHeight tokenStaked tokenStakedNow (parentLog log) ∧
    Steady (childLog toChild log) ∧ TotalsOfHeight tokenStaked tokenStakedNow (childLog toChild log) ∧
    OwnModules (childLog toChild log) ∧
    (∃ e ∈ log, DaoCore.Sub.send (.other 8) ∈ e.out.child.core) ∧
    (∃ e ∈ log, DaoCore.Sub.send (.other 9) ∈ e.out.child.core) ∧
    ¬ Enabled w.child.core.core 53 ∧ Enabled w.child.core.core 54 ∧ Paused w.child.core.core b := by
  obtain ⟨w, b, log, hr, hp⟩ := Sys.check_run
    (M := sys tokenStaked tokenStakedNow tokenStaked tokenStakedNow decode decodeChild toChild) (s := w0) (b := ⟨1, 1⟩)
    (cs := calls) (p := fun w b log => keeps log && fine (parentLog log) && childFine (childLog toChild log) &&
      childSent 8 log && childSent 9 log && !enabled w.child 53 && enabled w.child 54 && DaoCore.isPaused w.child.core.core b)
    (by decide +kernel)
  simp only [Bool.and_eq_true, Bool.not_eq_true'] at hp
  obtain ⟨⟨⟨⟨⟨⟨⟨h1, h2⟩, h3⟩, h4⟩, h5⟩, h6⟩, h7⟩, h8⟩ := hp
  obtain ⟨_, hr1, _⟩ := C96_parent hr
  obtain ⟨_, hr2, _⟩ := C96_child hr
  exact ⟨w, b, log, init, hr, keeps_admin h1, fine_steady h2, fine_governed h2,
    FullDao.C95_totals C94_token_staked.2 ⟨_, _, init.1, hr1⟩, child_steady h3,
    FullDao.C95_totals C94_token_staked.2 ⟨_, _, init.2.1, hr2⟩, child_own h3, childSent_mem h4, childSent_mem h5,
    fun h => (Bool.eq_false_iff.1 h6) (enabled_iff.2 h), enabled_iff.1 h7, (DaoCore.paused_iff _ _).1 h8⟩

/-- **C96.** The assumptions of `C96_obeys` and `C96_takeover` are met in the example just before the second admin message,
when the SubDAO is paused. -/
theorem C96_example_due : ∃ (w : World TokenStaked.World TokenStaked.World) (b : Block)
    (log : List (Event TokenStaked.World TokenStaked.World Block TokenStaked.Call Block TokenStaked.Call)),
    (sys tokenStaked tokenStakedNow tokenStaked tokenStakedNow decode decodeChild toChild).Run w0 ⟨1, 1⟩ log w b ∧
    KeepsAdmin toChild log ∧ toChild 101 = some (.executeAdminMsgs [.toSelf (.updateProposalModules [33] [53])]) ∧ (∃ rest, w.parent.core.stack = .send (.other 101) :: rest) ∧ Enabled w.child.core.core 53 ∧
    Paused w.child.core.core b := by
  obtain ⟨w, b, log, hr, hp⟩ := Sys.check_run
    (M := sys tokenStaked tokenStakedNow tokenStaked tokenStakedNow decode decodeChild toChild) (s := w0) (b := ⟨1, 1⟩)
    (cs := calls.take 19) (p := fun w b log => keeps log &&
      (match w.parent.core.stack with | .send (.other n) :: _ => decide (n = 101) | _ => false) &&
      enabled w.child 53 && DaoCore.isPaused w.child.core.core b)
    (by decide +kernel)
  simp only [Bool.and_eq_true] at hp
  obtain ⟨⟨⟨h1, h2⟩, h3⟩, h4⟩ := hp
  refine ⟨w, b, log, hr, keeps_admin h1, rfl, ?_, enabled_iff.1 h3, (DaoCore.paused_iff _ _).1 h4⟩
  split at h2
  · rename_i n rest hst
    exact ⟨rest, by rw [hst, of_decide_eq_true h2]⟩
  · cases h2

end Verif.SubDao.Example
