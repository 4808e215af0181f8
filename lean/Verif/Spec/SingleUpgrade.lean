import Verif.Model.SingleUpgrade
import Verif.Spec.SingleHistory
import Mathlib.Data.List.Forall2
/-!
# Specification vocabulary for upgrades of the single choice module
-/

namespace Verif.Spec.SingleUpgrade
open Verif Verif.Voting Verif.Hooks Verif.SingleUpgrade

/-- How version 1 writes down a percentage. -/
def writePercentage : PercentageThreshold → V1.Percentage
  | .majority => .majority
  | .percent p => .percent p

/-- How version 1 writes down a threshold. -/
def writeThreshold : Threshold → V1.Threshold
  | .absolutePercentage p => .absolutePercentage (writePercentage p)
  | .thresholdQuorum t q => .thresholdQuorum (writePercentage t) (writePercentage q)
  | .absoluteCount n => .absoluteCount n

/-- How version 1 writes down a duration. -/
def writeDuration : Duration → V1.Duration
  | .height n => .height n
  | .time s => .time s

/-- How version 1 writes down an expiration. -/
def writeExpiration : Expiration → V1.Expiration
  | .atHeight h => .atHeight h
  | .atTime t => .atTime t
  | .never => .never

/-- The statuses both versions have. -/
inductive SameStatus : V1.Status → Status → Prop where
  | opened : SameStatus .opened .opened
  | rejected : SameStatus .rejected .rejected
  | passed : SameStatus .passed .passed
  | executed : SameStatus .executed .executed
  | closed : SameStatus .closed .closed

/-- A proposal of version 1 and one of version 2 are the same proposal, whatever its deposit. There was no veto in
version 1. -/
structure SameProposal (v : V1.Proposal) (p : Single.Proposal) : Prop where
  content : v.content = p.content
  proposer : v.proposer = p.proposer
  startHeight : v.startHeight = p.startHeight
  minVotingPeriod : v.minVotingPeriod = p.minVotingPeriod.map writeExpiration
  expiration : v.expiration = writeExpiration p.expiration
  threshold : v.threshold = writeThreshold p.threshold
  totalPower : v.totalPower = p.totalPower
  msgs : v.msgs = p.msgs
  status : SameStatus v.status p.status
  votes : v.votes.yes = p.votes.yes ∧ v.votes.no = p.votes.no ∧ v.votes.abstain = p.votes.abstain
  allowRevoting : v.allowRevoting = p.allowRevoting
  veto : p.veto = none

/-- The configurations agree in what version 1 knows. -/
structure SameConfig (v : V1.Config) (c : Single.Config) : Prop where
  threshold : v.threshold = writeThreshold c.threshold
  maxVotingPeriod : v.maxVotingPeriod = writeDuration c.maxVotingPeriod
  minVotingPeriod : v.minVotingPeriod = c.minVotingPeriod.map writeDuration
  onlyMembersExecute : v.onlyMembersExecute = c.onlyMembersExecute
  allowRevoting : v.allowRevoting = c.allowRevoting
  dao : v.dao = c.dao

/-- The storage is that of a module of version 1 with the proposals, ballots, hooks and configuration of `s`. -/
structure Represents (st : Storage) (s : Single.State) : Prop where
  old : st.config = none ∧ st.policy = none ∧ st.proposals = []
  config : ∃ c, st.v1Config = some c ∧ SameConfig c s.config
  keys : st.v1Proposals.WF
  proposals : List.Forall₂ (fun a b => a.1 = b.1 ∧ SameProposal a.2 b.2) st.v1Proposals s.proposals
  count : st.count = s.count
  ballots : st.ballots = s.ballots
  hooks : st.proposalHooks = s.proposalHooks ∧ st.voteHooks = s.voteHooks

/-- Somebody has a deposit on the proposal that has not come back yet. -/
def DepositOpen (p : V1.Proposal) : Prop :=
  (∃ d, p.deposit = some d ∧ d ≠ 0) ∧ p.status ≠ .closed ∧ p.status ≠ .executed

/-- The timelock of the veto counts in the unit of the voting period. -/
def VetoFits (veto : Option VetoConfig) (c : V1.Config) : Prop :=
  ∀ v, veto = some v → (∃ a b, v.timelockDuration = .height a ∧ c.maxVotingPeriod = .height b) ∨
    ∃ a b, v.timelockDuration = .time a ∧ c.maxVotingPeriod = .time b

/-- An upgrade from version 1. -/
def fromV1 (e : Event) : Prop := ∃ code close info veto, e.call = .migrate code (.fromV1 close info veto)

/-- Upgrades from version 1 are only made while the module is one of version 1. -/
def FirstOnly (log : List Event) : Prop := ∀ e ∈ log, fromV1 e → e.pre.config = none

/-- A call that changes nothing but settings, made by the DAO in the block of event `e`. -/
structure BySettings (e : Event) (x : Single.Event) : Prop where
  block : x.env.block = e.env.block
  sender : x.env.sender = x.pre.config.dao
  call : (∃ c, x.call = .updateConfig c) ∨ ∃ i, x.call = .updatePreProposeInfo i

/-- The history `l` of a module of version 2 does what the history `log` with upgrades does: calls are the same calls,
with the same effects and messages, an upgrade from version 1 stands for two changes of settings by the DAO, and other
upgrades do nothing. Newest first. -/
inductive Carried : List Event → List Single.Event → Prop where
  | nil : Carried [] []
  | exec {log : List Event} {l : List Single.Event} {e : Event} {x : Single.Event} (h : Carried log l)
      (hc : e.call = .exec x.call) (he : x.env = e.env) (ho : x.out = e.out) (hpre : e.pre.view = some x.pre)
      (hpost : e.post.view = some x.post) : Carried (e :: log) (x :: l)
  | compatible {log : List Event} {l : List Single.Event} {e : Event} {code : Nat} (h : Carried log l)
      (hc : e.call = .migrate code .fromCompatible) : Carried (e :: log) l
  | fromV1 {log : List Event} {l : List Single.Event} {e : Event} {x y : Single.Event} (h : Carried log l)
      (hc : fromV1 e) (hx : BySettings e x) (hy : BySettings e y) : Carried (e :: log) (y :: x :: l)

/-- An event executes proposal `id`. -/
def executesId (id : Nat) (e : Event) : Bool :=
  match e.call with
  | .exec (.execute id' _) => decide (id' = id)
  | _ => false

end Verif.Spec.SingleUpgrade
