import Verif.Props.MigratorReady
import Verif.Props.SingleUpgradeExample
/-!
# Examples for C83: a DAO with two proposal modules and staked tokens is upgraded
-/

namespace Verif.Migrator.Example
open Verif Verif.Voting Verif.SingleUpgrade Verif.Spec.SingleUpgrade Verif.Spec.Migrator
open Verif.SingleUpgrade.Example (st0)

/-- The second module: one proposal, executed. -/
def st1 : Storage :=
  { st0 with v1Proposals := [(1, { content := 5, proposer := 7, startHeight := 2, minVotingPeriod := none, expiration := .atHeight 12, threshold := .absolutePercentage .majority, totalPower := 9, msgs := [], status := .executed, votes := ⟨6, 0, 0⟩, allowRevoting := false, deposit := some 30 })], count := 1, ballots := [] }

/-- The DAO before: modules 20 and 25, voting module 30, staking contract 31. -/
def w0 : World :=
  { coreVersion := 1
    core := { me := 100, admin := 100, nominated := none, config := ⟨0, true, true⟩, paused := none, voting := some 30
              modules := [], active := 0, total := 0, items := [(1, 2)], cw20s := [], cw721s := [], subDaos := [] }
    keys := [25, 20]
    code := [(20, 11), (25, 11), (30, 14), (31, 13)]
    admins := [(20, 100), (25, 100), (30, 100), (31, 100), (100, 100)]
    storages := [(20, st0), (25, st1)]
    staking := some 31 }

/-- What the transaction meets. -/
def e0 : Env :=
  { core := ⟨⟨5, 5⟩, fun _ => true, fun _ => true⟩
    migrator := 60
    preAddr := fun a => a + 1000
    ver := fun c => if 20 < c then some 2 else none
    v1Status := fun a => if a = 20 then .opened else .executed
    power := fun _ a _ => if a = 8 then 4 else 3
    total := fun _ _ => 9
    stakeOk := true }

/-- What is asked for. -/
def p0 : Params :=
  { subDaos := [(70, none)]
    confirm := some true
    proposals := [(20, ⟨true, .moduleMayPropose, none⟩), (25, ⟨false, .anyoneMayPropose, none⟩)]
    v1 := ⟨11, 12, 13, 14⟩
    v2 := ⟨21, 22, 23, 24⟩ }

theorem wf0 : AMap.WF st0.v1Proposals := by unfold AMap.WF; decide
theorem wf1 : AMap.WF st1.v1Proposals := by unfold AMap.WF; decide

theorem old_dao : OldDao w0 where
  keys := by decide
  few := by decide +kernel
  proposals := by
    intro a st h
    have h := AMap.mem_of_get h
    simp only [w0, List.mem_cons, List.not_mem_nil, or_false, Prod.mk.injEq] at h
    rcases h with ⟨_, rfl⟩ | ⟨_, rfl⟩
    · exact ⟨wf0, rfl⟩
    · exact ⟨wf1, rfl⟩
  subDaos := rfl

theorem new_migrator : New w0 e0 := ⟨rfl, by decide, by decide, by decide⟩

theorem different : Different p0.v1 := by unfold Different; decide

/-- What one sees of the upgraded DAO: code ids, modules and whether they are enabled, counts, SubDAOs, the proposals of
module 20. -/
structure Seen where
  code : List (Addr × Nat)
  modules : List (Addr × Bool)
  active : Nat
  total : Nat
  subDaos : List (Addr × Option Nat)
  proposals : List (Nat × Status)
  deriving DecidableEq

def statuses (st : Option Storage) : List (Nat × Status) :=
  match st with
  | some st => st.proposals.map fun x => (x.1, x.2.status)
  | none => []

def seen (w : World) : Seen :=
  ⟨w.code, w.core.modules.map fun x => (x.1, x.2.enabled), w.core.active, w.core.total, w.core.subDaos, statuses (w.storages.get 20)⟩

def outcome (r : Res World) : Option Seen :=
  match r with
  | .ok w => some (seen w)
  | .error _ => none

/-- What is expected. -/
def expected : Seen :=
  ⟨[(20, 21), (25, 21), (30, 24), (31, 23)], [(25, true), (20, true), (60, false)], 2, 3, [(70, none)], [(1, .passed), (2, .opened)]⟩

/-- The upgrade goes through, so `C83_complete`, `C83_accepted` and `C83_continues` are about something. -/
theorem C83_example :
    ∃ w', upgrade w0 e0 2 p0 = .ok w' ∧ Upgraded w0 e0 p0 w' ∧ Ready w0 e0 2 p0 ∧
      (∃ log, DaoCore.sys.Reach ⟨w'.core, []⟩ e0.core.block log) ∧
      seen w' = expected := by
  have h : outcome (upgrade w0 e0 2 p0) = some expected := by decide +kernel
  cases hu : upgrade w0 e0 2 p0 with
  | error _ => rw [hu] at h; cases h
  | ok w' =>
    rw [hu] at h
    injection h with h
    exact ⟨w', rfl, C83_complete hu different new_migrator old_dao, ready_of_upgrade hu different new_migrator old_dao,
      C83_continues hu new_migrator old_dao (by decide) (by unfold AMap.WF; decide) (by unfold AMap.WF; decide) (by unfold AMap.WF; decide), h⟩

/-- The same DAO with a third proposal module that has had no proposal yet cannot be upgraded by the migrator. -/
theorem C83_example_blocked (ver : Nat) (p : Params) (hd : Different p.v1) (w' : World) :
    upgrade { w0 with keys := [25, 20, 26], storages := [(20, st0), (25, st1), (26, { st1 with v1Proposals := [], count := 0 })] } e0 ver p ≠ .ok w' := by
  refine C83_blocked hd ⟨rfl, by decide, by decide, by decide⟩ ⟨by decide, by decide +kernel, ?_, rfl⟩ (.inl ⟨26, by decide, _, rfl, .inl rfl⟩) w'
  intro a st h
  have h := AMap.mem_of_get h
  simp only [List.mem_cons, List.not_mem_nil, or_false, Prod.mk.injEq] at h
  rcases h with ⟨_, rfl⟩ | ⟨_, rfl⟩ | ⟨_, rfl⟩
  · exact ⟨wf0, rfl⟩
  · exact ⟨wf1, rfl⟩
  · exact ⟨by unfold AMap.WF; decide, rfl⟩

end Verif.Migrator.Example
