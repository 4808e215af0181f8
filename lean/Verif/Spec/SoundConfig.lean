import Verif.Model.Single
import Verif.Model.Multiple
import Verif.Model.Condorcet
/-! # Sound configurations of proposal modules -/

namespace Verif.Voting
open Verif

/-- A share of the votes: a majority, or more than nothing and at most everything. `10^18` is the whole. -/
def SoundShare : PercentageThreshold → Prop
  | .majority => True
  | .percent a => 0 < a ∧ a ≤ 10 ^ 18

/-- A quorum may be nothing. -/
def SoundQuorum : PercentageThreshold → Prop
  | .majority => True
  | .percent a => a ≤ 10 ^ 18

def SoundThreshold : Threshold → Prop
  | .absolutePercentage p => SoundShare p
  | .thresholdQuorum t q => SoundShare t ∧ SoundQuorum q
  | .absoluteCount n => 0 < n

/-- Both in blocks, or both in time. -/
def SameUnit : Duration → Duration → Prop
  | .height _, .height _ => True
  | .time _, .time _ => True
  | _, _ => False

def length : Duration → Nat
  | .height n => n
  | .time n => n

/-- A minimum voting period is given in the unit of the voting period and is not longer. A timelock is given in the same
unit. -/
def SoundPeriods (min : Option Duration) (max : Duration) (veto : Option VetoConfig) : Prop :=
  (∀ d, min = some d → SameUnit d max ∧ length d ≤ length max) ∧
  ∀ v, veto = some v → SameUnit v.timelockDuration max

end Verif.Voting

namespace Verif
open Verif.Voting

def Single.Sound (c : Single.Config) : Prop :=
  SoundThreshold c.threshold ∧ SoundPeriods c.minVotingPeriod c.maxVotingPeriod c.veto

def Multiple.Sound (c : Multiple.Config) : Prop :=
  SoundQuorum c.quorum ∧ SoundPeriods c.minVotingPeriod c.maxVotingPeriod c.veto

def Condorcet.Sound (c : Condorcet.Config) : Prop :=
  SoundQuorum c.quorum ∧ SoundPeriods c.minVotingPeriod c.votingPeriod none

end Verif
