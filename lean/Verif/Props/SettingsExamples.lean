import Verif.Props.SettingsVoting
import Verif.Props.SettingsProposals
import Verif.Props.SoundConfig
import Verif.Props.NftStaked
/-!
# C100, C101: concrete histories
-/

namespace Verif.NftStaked
open Verif Verif.Settings

/-- The owner is 1. Receivers 20, 21, 22 come, 20 goes and comes back; the unstaking duration and the active threshold
change; somebody stakes in between. -/
def setCalls : List (Block × Call) :=
  [(⟨2, 2⟩, .exec 1 (.addHook 20)), (⟨2, 2⟩, .exec 1 (.addHook 21)), (⟨2, 2⟩, .send 2 4),
   (⟨3, 3⟩, .exec 1 (.addHook 22)), (⟨3, 3⟩, .exec 1 (.removeHook 20)), (⟨4, 4⟩, .exec 1 (.updateConfig (some (.time 5)))),
   (⟨4, 4⟩, .exec 1 (.updateActiveThreshold (some (.absolute 2)))), (⟨4, 4⟩, .exec 1 (.updateActiveThreshold none)),
   (⟨5, 5⟩, .exec 1 (.addHook 20))]

example : (match sys.play exW ⟨1, 1⟩ setCalls with
    | some (w, _, log) => decide (receivers editsHooks (log.map (·.call)) = [21, 22, 20] ∧
        w.c.hooks = some [21, 22, 20] ∧ w.c.unstakingDuration = some (.time 5) ∧ w.c.threshold = none ∧
        value setsDuration exW.c.unstakingDuration (log.map (·.call)) = some (.time 5))
    | none => false) = true := by decide +kernel

end Verif.NftStaked

namespace Verif.Single
open Verif Verif.Settings
open Verif.Voting (length)

/-- DAO 1, majority of 10 with a quorum of a fifth, no time to vote. -/
def zeroCfg : Config :=
  { threshold := .thresholdQuorum .majority (.percent (2 * 10 ^ 17)), maxVotingPeriod := .height 0, minVotingPeriod := none,
    onlyMembersExecute := true, allowRevoting := false, dao := 1, closeOnExecutionFailure := true, veto := none }

def zeroEnv (h : Nat) (a : Addr) : Env := ⟨⟨h, h⟩, a, fun _ _ _ => 10, fun _ _ => 10, true⟩

def zeroStart : State :=
  match instantiate (zeroEnv 1 1) zeroCfg .anyoneMayPropose with
  | .ok (s, _) => s
  | .error _ => ⟨zeroCfg, 0, [], [], none, none, .anyone⟩

theorem zeroReach : Reach zeroStart ⟨1, 1⟩ [] :=
  ⟨zeroEnv 1 1, zeroCfg, .anyoneMayPropose, zeroStart, { msgs := [] }, by decide +kernel, .refl⟩

/-- Address 2 has all the power, proposes, and cannot vote. The proposal is closed. -/
example : (match step zeroStart (zeroEnv 5 2) (.propose none 7 [8] none true) with
    | .ok (s, o) => decide (o.newId = some 1) &&
      (match step s (zeroEnv 5 2) (.vote 1 .yes none) with | .ok _ => false | .error _ => true) &&
      (match step s (zeroEnv 6 3) (.close 1) with
        | .ok (s', _) => decide ((s'.proposals.get 1).map (·.status) = some .closed)
        | .error _ => false)
    | .error _ => false) = true := by decide +kernel

example : length zeroStart.config.maxVotingPeriod = 0 ∧
    (∀ a, zeroStart.config.threshold = .absolutePercentage (.percent a) → 10 ^ 9 ≤ a) := by
  refine ⟨by decide +kernel, fun a h => ?_⟩
  rw [show zeroStart.config.threshold = .thresholdQuorum .majority (.percent (2 * 10 ^ 17)) by decide +kernel] at h
  simp at h

/-- Unsound: nothing asked for; a minimum voting period in another unit; one longer than the voting period; a timelock in
another unit. -/
example : ¬ Sound { zeroCfg with threshold := .absoluteCount 0 } ∧
    ¬ Sound { zeroCfg with minVotingPeriod := some (.time 0) } ∧
    ¬ Sound { zeroCfg with minVotingPeriod := some (.height 1) } ∧
    ¬ Sound { zeroCfg with veto := some ⟨.time 3, 4, true, true⟩ } ∧
    Sound { zeroCfg with veto := some ⟨.height 3, 4, true, true⟩ } ∧
    Sound { zeroCfg with maxVotingPeriod := .height 4, minVotingPeriod := some (.height 4) } := by
  simp [Sound, zeroCfg, Voting.SoundThreshold, Voting.SoundShare, Voting.SoundQuorum, Voting.SoundPeriods, Voting.SameUnit,
    Voting.length]

/-- The DAO adds and removes receivers of votes and changes its configuration. -/
def setHistory : Res (State × List Call) := do
  let calls : List Call := [.addVoteHook 20, .addVoteHook 21, .removeVoteHook 20, .addProposalHook 30,
    .updateConfig { zeroCfg with maxVotingPeriod := .height 9 }, .addVoteHook 20]
  let s ← calls.foldlM (fun s c => do let (s, _) ← step s (zeroEnv 2 1) c; .ok s) zeroStart
  .ok (s, calls.reverse)

example : (match setHistory with
    | .ok (s, log) => decide (s.voteHooks = some [21, 20] ∧ receivers editsVoteHooks log = [21, 20] ∧
        s.proposalHooks = some [30] ∧ receivers editsProposalHooks log = [30] ∧
        s.config.maxVotingPeriod = .height 9 ∧ (value setsConfig zeroStart.config log) = s.config)
    | .error _ => false) = true := by decide +kernel

end Verif.Single
