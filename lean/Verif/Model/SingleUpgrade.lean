import Verif.Model.Single
import Verif.Base.History
/-!
# Model of the upgrades of `contracts/proposal/dao-proposal-single`

`migrate` turns the storage of version 1 (the crate cw-proposal-single, not in /repo) into that of version 2. The v1
storage is modelled as `migrate` reads it. Version numbers are natural numbers. The v1 config's deposit is not read and
left out, and v1 ballots, which are read in place, have no rationale.
-/

namespace Verif.SingleUpgrade
open Verif Verif.Voting Verif.Hooks

namespace V1

/-- `voting_v1::PercentageThreshold`, as read by contracts/proposal/dao-proposal-single/src/v1_state.rs:11-16. -/
inductive Percentage where
  | majority
  | percent (p : Nat)
  deriving DecidableEq, Repr

/-- `voting_v1::Threshold`, as read by contracts/proposal/dao-proposal-single/src/v1_state.rs:18-29. -/
inductive Threshold where
  | absolutePercentage (percentage : Percentage)
  | thresholdQuorum (threshold quorum : Percentage)
  | absoluteCount (threshold : Nat)
  deriving DecidableEq, Repr

/-- `cw_utils_v1::Duration`, as read by contracts/proposal/dao-proposal-single/src/v1_state.rs:31-36. -/
inductive Duration where
  | height (n : Nat)
  | time (s : Nat)
  deriving DecidableEq, Repr

/-- `cw_utils_v1::Expiration`, as read by contracts/proposal/dao-proposal-single/src/v1_state.rs:38-44. -/
inductive Expiration where
  | atHeight (h : Nat)
  | atTime (t : Nat)
  | never
  deriving DecidableEq, Repr

/-- `voting_v1::Votes`, as read by contracts/proposal/dao-proposal-single/src/v1_state.rs:46-52. -/
structure Votes where
  yes : Nat
  no : Nat
  abstain : Nat
  deriving DecidableEq, Repr

/-- `voting_v1::Status`, as read by contracts/proposal/dao-proposal-single/src/v1_state.rs:54-62. -/
inductive Status where
  | opened
  | rejected
  | passed
  | executed
  | closed
  deriving DecidableEq, Repr

/-- `v1::state::Config`, as read by contracts/proposal/dao-proposal-single/src/contract.rs:984-1007. -/
structure Config where
  threshold : Threshold
  maxVotingPeriod : Duration
  minVotingPeriod : Option Duration
  onlyMembersExecute : Bool
  allowRevoting : Bool
  dao : Addr
  deriving DecidableEq, Repr

/-- `v1::proposal::Proposal`, as read by contracts/proposal/dao-proposal-single/src/contract.rs:1024-1052. Of the deposit
only the amount matters. -/
structure Proposal where
  content : Nat
  proposer : Addr
  startHeight : Nat
  minVotingPeriod : Option Expiration
  expiration : Expiration
  threshold : Threshold
  totalPower : Nat
  msgs : List Nat
  status : Status
  votes : Votes
  allowRevoting : Bool
  deposit : Option Nat
  deriving DecidableEq, Repr

end V1

/-- `v1_percentage_threshold_to_v2`, contracts/proposal/dao-proposal-single/src/v1_state.rs:11-16. -/
def percentageToV2 : V1.Percentage → PercentageThreshold
  | .majority => .majority
  | .percent p => .percent p

/-- `v1_threshold_to_v2`, contracts/proposal/dao-proposal-single/src/v1_state.rs:18-29. -/
def thresholdToV2 : V1.Threshold → Threshold
  | .absolutePercentage p => .absolutePercentage (percentageToV2 p)
  | .thresholdQuorum t q => .thresholdQuorum (percentageToV2 t) (percentageToV2 q)
  | .absoluteCount n => .absoluteCount n

/-- `v1_duration_to_v2`, contracts/proposal/dao-proposal-single/src/v1_state.rs:31-36. -/
def durationToV2 : V1.Duration → Duration
  | .height n => .height n
  | .time s => .time s

/-- `v1_expiration_to_v2`, contracts/proposal/dao-proposal-single/src/v1_state.rs:38-44. -/
def expirationToV2 : V1.Expiration → Expiration
  | .atHeight h => .atHeight h
  | .atTime t => .atTime t
  | .never => .never

/-- `v1_votes_to_v2`, contracts/proposal/dao-proposal-single/src/v1_state.rs:46-52. -/
def votesToV2 (v : V1.Votes) : Votes := ⟨v.yes, v.no, v.abstain⟩

/-- `v1_status_to_v2`, contracts/proposal/dao-proposal-single/src/v1_state.rs:54-62. -/
def statusToV2 : V1.Status → Status
  | .opened => .opened
  | .rejected => .rejected
  | .passed => .passed
  | .executed => .executed
  | .closed => .closed

/-- The storage of the contract: the keys of version 1 (`config`, `proposals`), which stay where they are, those of
version 2 (`config_v2`, `proposals_v2`, `creation_policy`), and those both have, contracts/proposal/dao-proposal-single/src/state.rs:66-83. -/
structure Storage where
  version : Nat
  v1Config : Option V1.Config
  v1Proposals : AMap Nat V1.Proposal
  config : Option Single.Config
  proposals : AMap Nat Single.Proposal
  policy : Option CreationPolicy
  count : Nat
  ballots : AMap (Nat × Addr) Single.Ballot
  proposalHooks : HookList
  voteHooks : HookList
  deriving DecidableEq, Repr

/-- What the code of version 2 reads. -/
def Storage.view (st : Storage) : Option Single.State := do
  let c ← st.config
  let p ← st.policy
  some ⟨c, st.count, st.proposals, st.ballots, st.proposalHooks, st.voteHooks, p⟩

/-- What the code of version 2 writes. -/
def Storage.put (st : Storage) (s : Single.State) : Storage :=
  { st with config := some s.config, policy := some s.policy, count := s.count, proposals := s.proposals
            ballots := s.ballots, proposalHooks := s.proposalHooks, voteHooks := s.voteHooks }

/-- The deposit check of the loop, contracts/proposal/dao-proposal-single/src/contract.rs:1026-1037. -/
def pending (p : V1.Proposal) : Bool :=
  (match p.deposit with | some d => decide (d ≠ 0) | none => false) &&
    decide (p.status ≠ .closed) && decide (p.status ≠ .executed)

/-- The new proposal, contracts/proposal/dao-proposal-single/src/contract.rs:1039-1053. -/
def proposalToV2 (p : V1.Proposal) : Single.Proposal :=
  { content := p.content, proposer := p.proposer, startHeight := p.startHeight
    minVotingPeriod := p.minVotingPeriod.map expirationToV2, expiration := expirationToV2 p.expiration
    threshold := thresholdToV2 p.threshold, totalPower := p.totalPower, msgs := p.msgs, status := statusToV2 p.status
    votes := votesToV2 p.votes, allowRevoting := p.allowRevoting, veto := none }

/-- The loop over the proposals, contracts/proposal/dao-proposal-single/src/contract.rs:1022-1058. -/
def migrateAll : List (Nat × V1.Proposal) → AMap Nat Single.Proposal → Res (AMap Nat Single.Proposal)
  | [], m => .ok m
  | (id, p) :: rest, m => do
    require (!pending p) (.custom 2)
    migrateAll rest (m.set id (proposalToV2 p))

/-- `veto_config.validate`, if there is one, contracts/proposal/dao-proposal-single/src/contract.rs:987-990. -/
def validateVeto (v : Option VetoConfig) (max : Duration) : Res Unit :=
  match v with
  | some v => v.validate max
  | none => .ok ()

/-- The new config, contracts/proposal/dao-proposal-single/src/contract.rs:994-1006. -/
def configToV2 (c : V1.Config) (close : Bool) (veto : Option VetoConfig) : Single.Config :=
  { threshold := thresholdToV2 c.threshold, maxVotingPeriod := durationToV2 c.maxVotingPeriod
    minVotingPeriod := c.minVotingPeriod.map durationToV2, onlyMembersExecute := c.onlyMembersExecute
    allowRevoting := c.allowRevoting, dao := c.dao, closeOnExecutionFailure := close, veto := veto }

/-- `MigrateMsg`, contracts/proposal/dao-proposal-single/src/msg.rs:213-244. -/
inductive MigrateMsg where
  | fromV1 (close : Bool) (info : Single.PreProposeInfo) (veto : Option VetoConfig)
  | fromCompatible
  deriving DecidableEq, Repr

/-- `migrate`, contracts/proposal/dao-proposal-single/src/contract.rs:966-1066. `code` is the version of the new code. -/
def migrate (code : Nat) (st : Storage) : MigrateMsg → Res (Storage × Single.Out)
  | .fromV1 close info veto => do
    require (decide (st.version ≠ code)) (.custom 1)
    let c ← orErr st.v1Config .notFound
    validateVeto veto (durationToV2 c.maxVotingPeriod)
    let ps ← migrateAll st.v1Proposals st.proposals
    .ok ({ st with version := code, config := some (configToV2 c close veto), policy := some (Single.initialPolicy info).1, proposals := ps },
      ⟨(Single.initialPolicy info).2, none⟩)
  | .fromCompatible => .ok ({ st with version := code }, ⟨[], none⟩)

/-- Calls of the code of version 2, and upgrades. -/
inductive Call where
  | exec (c : Single.Call)
  | migrate (code : Nat) (m : MigrateMsg)
  deriving DecidableEq, Repr

/-- One transaction. Calls of the code of version 1 are not modelled. -/
def step (st : Storage) (env : Single.Env) : Call → Res (Storage × Single.Out)
  | .exec c => do
    let s ← orErr st.view .notFound
    let r ← Single.step s env c
    .ok (st.put r.1, r.2)
  | .migrate code m => migrate code st m

/-- The module from the moment it has storage of version 1 only. -/
def sys : Sys Storage Single.Env Call Single.Out where
  init _ st := st.config = none ∧ st.policy = none ∧ st.proposals = []
  block e := e.block
  step := step

/-- An event of a history. -/
abbrev Event := Ev Storage Single.Env Call Single.Out

end Verif.SingleUpgrade
