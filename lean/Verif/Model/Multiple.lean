import Verif.Base.Map
import Verif.Model.Voting
import Verif.Model.Reply
import Verif.Model.Hooks
/-!
# Model of `contracts/proposal/dao-proposal-multiple`

Simplifications, all of them: titles and descriptions are opaque numbers; messages are opaque numbers;
the serialized size of a proposal is the argument `sizeOk`; the field `vote_count` of an option, which
is always zero, is dropped; address validation, event attributes and the cw2 version are dropped;
`migrate` is not modelled. Queries to the DAO and the voting module are answered by the environment; an
answer that does not fit a `Uint128` is an error, as it does not parse.
-/

namespace Verif.Multiple
open Verif Verif.Voting Verif.Hooks

/-- `MultipleChoiceVote::option_id`, packages/dao-voting/src/multiple_choice.rs:32-37. -/
abbrev Vote := Nat

/-- `MultipleChoiceVotes`, packages/dao-voting/src/multiple_choice.rs:46-51. -/
structure Votes where
  weights : List Nat
  deriving DecidableEq, Repr

/-- `impl Sum for Uint128` as used in packages/dao-voting/src/multiple_choice.rs:55-57: repeated
addition, panicking on overflow. -/
def sumFrom (acc : Nat) : List Nat → Res Nat
  | [] => .ok acc
  | x :: xs => do let a ← add128 acc x; sumFrom a xs

/-- `MultipleChoiceVotes::total`, packages/dao-voting/src/multiple_choice.rs:55-57. -/
def Votes.total (v : Votes) : Res Nat := sumFrom 0 v.weights

/-- `MultipleChoiceVotes::add_vote`, packages/dao-voting/src/multiple_choice.rs:60-65. Indexing out of
range panics. -/
def Votes.addVote (v : Votes) (i : Vote) (power : Nat) : Res Votes := do
  let x ← orErr v.weights[i]? .panic
  let y ← add128 x power
  .ok ⟨v.weights.set i y⟩

/-- `MultipleChoiceVotes::remove_vote`, packages/dao-voting/src/multiple_choice.rs:68-73. -/
def Votes.removeVote (v : Votes) (i : Vote) (power : Nat) : Res Votes := do
  let x ← orErr v.weights[i]? .panic
  let y ← sub128 x power
  .ok ⟨v.weights.set i y⟩

/-- `MultipleChoiceVotes::zero`, packages/dao-voting/src/multiple_choice.rs:76-80. -/
def Votes.zero (n : Nat) : Votes := ⟨List.replicate n 0⟩

/-- `CheckedMultipleChoiceOption`, packages/dao-voting/src/multiple_choice.rs:115-125. `isNone` is
`option_type == None`. -/
structure Choice where
  index : Nat
  isNone : Bool
  content : Nat
  msgs : List Nat
  deriving DecidableEq, Repr

/-- `MAX_NUM_CHOICES`, packages/dao-voting/src/multiple_choice.rs:8. -/
def MAX_NUM_CHOICES : Nat := 20

/-- Numbering of the options, packages/dao-voting/src/multiple_choice.rs:139-153. -/
def numbered (from_ : Nat) : List (Nat × List Nat) → List Choice
  | [] => []
  | o :: os => ⟨from_, false, o.1, o.2⟩ :: numbered (from_ + 1) os

/-- `MultipleChoiceOptions::into_checked`, packages/dao-voting/src/multiple_choice.rs:128-170. The index
of the appended option is computed from the vector's capacity there, which `with_capacity(len + 1)` made
`len + 1`. -/
def intoChecked (os : List (Nat × List Nat)) : Res (List Choice) :=
  if os.length < 2 ∨ os.length > MAX_NUM_CHOICES then .error .invalid
  else .ok (numbered 0 os ++ [⟨os.length, true, 0, []⟩])

/-- `Ballot`, contracts/proposal/dao-proposal-multiple/src/state.rs:52-61. -/
structure Ballot where
  power : Nat
  vote : Vote
  rationale : Option Nat
  deriving DecidableEq, Repr

/-- `MultipleChoiceProposal`, contracts/proposal/dao-proposal-multiple/src/proposal.rs:18-54. `content`
stands for title and description; the only voting strategy is given by its quorum. -/
structure Proposal where
  content : Nat
  proposer : Addr
  startHeight : Nat
  minVotingPeriod : Option Expiration
  expiration : Expiration
  quorum : PercentageThreshold
  totalPower : Nat
  choices : List Choice
  status : Status
  votes : Votes
  allowRevoting : Bool
  veto : Option VetoConfig
  deriving DecidableEq, Repr

/-- `VoteResult`, contracts/proposal/dao-proposal-multiple/src/proposal.rs:56-59. -/
inductive VoteResult where
  | winner (c : Choice)
  | tie
  deriving DecidableEq, Repr

/-- `calculate_vote_result`, contracts/proposal/dao-proposal-multiple/src/proposal.rs:216-248. -/
def Proposal.voteResult (p : Proposal) : Res VoteResult :=
  match p.votes.weights.max? with
  | none => .error .notFound
  | some m =>
    match p.votes.weights.zipIdx.filter (fun x => x.1 == m) with
    | [] => .error .invalid
    | [x] => do
      let c ← orErr p.choices[x.2]? .panic
      .ok (.winner c)
    | _ :: _ :: _ => .ok .tie

/-- The comparison at the end of `is_choice_unbeatable`,
contracts/proposal/dao-proposal-multiple/src/proposal.rs:264-280: strict, unless the leader is "none of
the above". -/
def beats (isNone : Bool) (w bound : Nat) : Bool :=
  if isNone then decide (w ≥ bound) else decide (w > bound)

/-- `is_choice_unbeatable`, contracts/proposal/dao-proposal-multiple/src/proposal.rs:252-286. -/
def Proposal.isUnbeatable (p : Proposal) (c : Choice) : Res Bool := do
  let w ← orErr p.votes.weights[c.index]? .panic
  let second ← orErr (p.votes.weights.filter (fun x => decide (x < w))).max? .notFound
  let tot ← p.votes.total
  let remaining ← sub128 p.totalPower tot
  let bound ← add128 second remaining
  .ok (beats c.isNone w bound)

/-- The minimum voting period is set and not over. -/
def Proposal.minPeriodRunning (p : Proposal) (b : Block) : Bool :=
  match p.minVotingPeriod with
  | some m => !m.isExpired b
  | none => false

/-- The quorum test, contracts/proposal/dao-proposal-multiple/src/proposal.rs:139-143, 185-189. -/
def Proposal.quorumMet (p : Proposal) : Res Bool := do
  let tot ← p.votes.total
  doesVoteCountPass tot p.totalPower p.quorum

/-- The part of `is_passed` after the quorum test,
contracts/proposal/dao-proposal-multiple/src/proposal.rs:144-160. -/
def Proposal.winnerPasses (p : Proposal) (b : Block) : Res Bool := do
  let r ← p.voteResult
  match r with
  | .tie => .ok false
  | .winner c =>
    if c.isNone then .ok false
    else if p.expiration.isExpired b then .ok true
    else p.isUnbeatable c

/-- `is_passed`, contracts/proposal/dao-proposal-multiple/src/proposal.rs:121-164. -/
def Proposal.isPassed (p : Proposal) (b : Block) : Res Bool :=
  if p.allowRevoting && !p.expiration.isExpired b then .ok false
  else if p.minPeriodRunning b then .ok false
  else do
    let q ← p.quorumMet
    if q then p.winnerPasses b else .ok false

/-- The branch of `is_rejected` for a single leader,
contracts/proposal/dao-proposal-multiple/src/proposal.rs:183-211. -/
def Proposal.winnerRejects (p : Proposal) (b : Block) (c : Choice) : Res Bool := do
  let q ← p.quorumMet
  match q, p.expiration.isExpired b with
  | true, true => .ok c.isNone
  | _, false => if c.isNone then p.isUnbeatable c else .ok false
  | false, true => .ok true

/-- `is_rejected`, contracts/proposal/dao-proposal-multiple/src/proposal.rs:166-213. -/
def Proposal.isRejected (p : Proposal) (b : Block) : Res Bool :=
  if p.allowRevoting && !p.expiration.isExpired b then .ok false
  else do
    let r ← p.voteResult
    match r with
    | .tie =>
      if p.expiration.isExpired b then .ok true
      else do
        let tot ← p.votes.total
        .ok (decide (p.totalPower = tot))
    | .winner c => p.winnerRejects b c

/-- `current_status`, contracts/proposal/dao-proposal-multiple/src/proposal.rs:75-106. -/
def Proposal.currentStatus (p : Proposal) (b : Block) : Res Status :=
  match p.status with
  | .opened => do
    let passed ← p.isPassed b
    if passed then
      match p.veto with
      | some v => do
        let e ← p.expiration.add v.timelockDuration
        if e.isExpired b then .ok .passed else .ok (.vetoTimelock e)
      | none => .ok .passed
    else if p.expiration.isExpired b then .ok .rejected
    else do
      let rejected ← p.isRejected b
      if rejected then .ok .rejected else .ok .opened
  | .vetoTimelock e => if e.isExpired b then .ok .passed else .ok (.vetoTimelock e)
  | s => .ok s

/-- `update_status`, contracts/proposal/dao-proposal-multiple/src/proposal.rs:109-113. -/
def Proposal.updateStatus (p : Proposal) (b : Block) : Res Proposal := do
  let s ← p.currentStatus b
  .ok { p with status := s }

/-- `Config`, contracts/proposal/dao-proposal-multiple/src/state.rs:13-50. -/
structure Config where
  quorum : PercentageThreshold
  maxVotingPeriod : Duration
  minVotingPeriod : Option Duration
  onlyMembersExecute : Bool
  allowRevoting : Bool
  dao : Addr
  closeOnExecutionFailure : Bool
  veto : Option VetoConfig
  deriving DecidableEq, Repr

/-- The storage of the contract, contracts/proposal/dao-proposal-multiple/src/state.rs:63-74. -/
structure State where
  config : Config
  count : Nat
  proposals : AMap Nat Proposal
  ballots : AMap (Nat × Addr) Ballot
  proposalHooks : HookList
  voteHooks : HookList
  policy : CreationPolicy
  deriving DecidableEq, Repr

/-- What a call sees: the block, the sender, and the answers of the DAO and its voting module.
`power d a h` is the voting power of `a` at height `h` reported through DAO `d`;
`totalNow d` is the answer to the total power query that names no height. -/
structure Env where
  block : Block
  sender : Addr
  power : Addr → Addr → Nat → Nat
  totalNow : Addr → Nat
  active : Bool

/-- `PreProposeInfo`, packages/dao-voting/src/pre_propose.rs:11-18. -/
inductive PreProposeInfo where
  | anyoneMayPropose
  | moduleMayPropose
  deriving DecidableEq, Repr

/-- The submessages a call emits, with their payload. -/
inductive Msg where
  /-- `ExecuteProposalHook { msgs }` to the DAO. -/
  | executeOnDao (dao : Addr) (msgs : List Nat)
  | newProposalHook (hook : Addr) (id : Nat) (proposer : Addr)
  | statusHook (hook : Addr) (id : Nat) (old new : Status)
  | voteHook (hook : Addr) (id : Nat) (voter : Addr) (vote : Vote)
  | completedHook (module : Addr) (id : Nat) (status : Status)
  | instantiatePrePropose
  deriving DecidableEq, Repr

/-- A submessage with its reply id (`none`: plain message). -/
structure SubMsg where
  msg : Msg
  replyId : Option Nat
  deriving DecidableEq, Repr

/-- The response of a call. `newId` is the `proposal_id` attribute of `propose`. -/
structure Out where
  msgs : List SubMsg
  newId : Option Nat := none
  deriving DecidableEq, Repr

/-- The calls of the contract. `execute` carries the fate of the message it sends to the DAO:
`daoFails` says whether that submessage fails. When it fails and replies on error, its effects are
rolled back and `reply` runs at once, so the pair is one step; when it fails without a reply the whole
transaction reverts. -/
inductive Call where
  | propose (proposer : Option Addr) (content : Nat) (options : List (Nat × List Nat))
      (vote : Option (Vote × Option Nat)) (sizeOk : Bool)
  | vote (id : Nat) (vote : Vote) (rationale : Option Nat)
  | updateRationale (id : Nat) (rationale : Option Nat)
  | execute (id : Nat) (daoFails : Bool)
  | close (id : Nat)
  | veto (id : Nat)
  | updateConfig (c : Config)
  | updatePreProposeInfo (i : PreProposeInfo)
  | addProposalHook (a : Addr)
  | removeProposalHook (a : Addr)
  | addVoteHook (a : Addr)
  | removeVoteHook (a : Addr)
  | replyFailedProposalHook (idx : Nat)
  | replyFailedVoteHook (idx : Nat)
  | replyPreProposeInstantiated (addr : Addr)
  | replyFailedPreProposeHook
  deriving DecidableEq, Repr

/-- `get_voting_power`, packages/dao-voting/src/voting.rs:191-208. -/
def queryPower (env : Env) (dao a : Addr) (h : Nat) : Res Nat :=
  if env.power dao a h < U128 then .ok (env.power dao a h) else .error .invalid

/-- `get_total_power` with height `None`, packages/dao-voting/src/voting.rs:210-224. -/
def queryTotal (env : Env) (dao : Addr) : Res Nat :=
  if env.totalNow dao < U128 then .ok (env.totalNow dao) else .error .invalid

/-- `new_proposal_hooks`, packages/dao-hooks/src/proposal.rs:29-58. -/
def newProposalHooks (h : HookList) (id : Nat) (proposer : Addr) : List SubMsg :=
  prepareHooks h (fun i a =>
    ⟨.newProposalHook a id proposer, some (Reply.maskProposalHook i)⟩)

/-- `proposal_status_changed_hooks`, packages/dao-hooks/src/proposal.rs:63-98. The statuses are
compared by their display names (packages/dao-voting/src/status.rs:28-44), which are injective: the
timelock's expiration is part of its name. -/
def statusChangedHooks (h : HookList) (id : Nat) (old new : Status) : List SubMsg :=
  if old = new then []
  else prepareHooks h (fun i a => ⟨.statusHook a id old new, some (Reply.maskProposalHook i)⟩)

/-- `proposal_completed_hooks`, packages/dao-hooks/src/proposal.rs:105-131. -/
def completedHooks (p : CreationPolicy) (id : Nat) (s : Status) : List SubMsg :=
  match p with
  | .anyone => []
  | .module a => [⟨.completedHook a id s, some Reply.failedPreProposeHookId⟩]

/-- `new_vote_hooks`, packages/dao-hooks/src/vote.rs:19-43. -/
def newVoteHooks (h : HookList) (id : Nat) (voter : Addr) (v : Vote) : List SubMsg :=
  prepareHooks h (fun i a => ⟨.voteHook a id voter v, some (Reply.maskVoteHook i)⟩)

/-- The validation shared by `instantiate` and `execute_update_config`,
contracts/proposal/dao-proposal-multiple/src/contract.rs:52-66, 646-656. -/
def validateConfig (c : Config) : Res Unit := do
  validateQuorum c.quorum
  validateVotingPeriod c.minVotingPeriod c.maxVotingPeriod
  match c.veto with
  | some v => v.validate c.maxVotingPeriod
  | none => .ok ()

/-- `PreProposeInfo::into_initial_policy_and_messages`, packages/dao-voting/src/pre_propose.rs:44-63. -/
def initialPolicy : PreProposeInfo → CreationPolicy × List SubMsg
  | .anyoneMayPropose => (.anyone, [])
  | .moduleMayPropose =>
    (.anyone, [⟨.instantiatePrePropose, some Reply.preProposeInstantiationId⟩])

/-- `instantiate`, contracts/proposal/dao-proposal-multiple/src/contract.rs:44-89. The sender becomes
the DAO. -/
def instantiate (env : Env) (c : Config) (i : PreProposeInfo) : Res (State × Out) := do
  validateConfig c
  .ok ({ config := { c with dao := env.sender }, count := 0, proposals := [], ballots := [],
         proposalHooks := none, voteHooks := none, policy := (initialPolicy i).1 },
       { msgs := (initialPolicy i).2 })

/-- `BALLOTS.update` closure of `execute_vote`,
contracts/proposal/dao-proposal-multiple/src/contract.rs:405-432: the tally with an old ballot removed. -/
def withdrawBallot (p : Proposal) (old : Option Ballot) (v : Vote) : Res Votes :=
  match old with
  | none => .ok p.votes
  | some b =>
    if p.allowRevoting then
      if b.vote = v then .error (.custom 1)  -- AlreadyCast
      else p.votes.removeVote b.vote b.power
    else .error (.custom 2)  -- AlreadyVoted

/-- `execute_vote`, contracts/proposal/dao-proposal-multiple/src/contract.rs:366-466. -/
def execVote (s : State) (env : Env) (voter : Addr) (id : Nat) (v : Vote)
    (rationale : Option Nat) : Res (State × Out) := do
  let p ← orErr (s.proposals.get id) .notFound
  require (decide (v < p.choices.length)) .invalid  -- InvalidVote
  require (!p.expiration.isExpired env.block) (.custom 3)  -- Expired
  let power ← queryPower env s.config.dao voter p.startHeight
  require (decide (power ≠ 0)) (.custom 4)  -- NotRegistered
  let withdrawn ← withdrawBallot p (s.ballots.get (id, voter)) v
  let votes ← withdrawn.addVote v power
  let p' ← { p with votes := votes }.updateStatus env.block
  .ok ({ s with
          proposals := s.proposals.set id p'
          ballots := s.ballots.set (id, voter) ⟨power, v, rationale⟩ },
       { msgs := statusChangedHooks s.proposalHooks id p.status p'.status
                  ++ newVoteHooks s.voteHooks id voter v })

/-- The proposer recorded, contracts/proposal/dao-proposal-multiple/src/contract.rs:172-180. -/
def resolveProposer (given : Option Addr) (policy : CreationPolicy) (sender : Addr) : Res Addr :=
  match given, policy with
  | none, .anyone => .ok sender
  | some a, .module _ => .ok a
  | _, _ => .error .invalid

/-- The new proposal before its first status update,
contracts/proposal/dao-proposal-multiple/src/contract.rs:206-220. -/
def freshProposal (c : Config) (b : Block) (proposer : Addr) (content : Nat) (choices : List Choice)
    (totalPower : Nat) : Proposal :=
  { content := content, proposer := proposer, startHeight := b.height,
    minVotingPeriod := c.minVotingPeriod.map (·.after b), expiration := c.maxVotingPeriod.after b,
    quorum := c.quorum, totalPower := totalPower, choices := choices, status := .opened,
    votes := .zero choices.length, allowRevoting := c.allowRevoting, veto := c.veto }

/-- `execute_propose`, contracts/proposal/dao-proposal-multiple/src/contract.rs:149-291. -/
def execPropose (s : State) (env : Env) (given : Option Addr) (content : Nat)
    (options : List (Nat × List Nat))
    (vote : Option (Vote × Option Nat)) (sizeOk : Bool) : Res (State × Out) := do
  require (s.policy.isPermitted env.sender) .unauthorized
  let proposer ← resolveProposer given s.policy env.sender
  require env.active .invalid  -- InactiveDao
  let choices ← intoChecked options
  let total ← queryTotal env s.config.dao
  let p ← (freshProposal s.config env.block proposer content choices total).updateStatus env.block
  let id ← add64 s.count 1
  require sizeOk .invalid
  let s1 := { s with count := id, proposals := s.proposals.set id p }
  let hooks := newProposalHooks s.proposalHooks id proposer
  match vote with
  | some (v, r) => do
    let (s2, out) ← execVote s1 env proposer id v r
    .ok (s2, { msgs := hooks ++ out.msgs, newId := some id })
  | none => .ok (s1, { msgs := hooks, newId := some id })

/-- The status check of `execute_veto`,
contracts/proposal/dao-proposal-multiple/src/contract.rs:315-339. -/
def vetoCheck (st : Status) (v : VetoConfig) (b : Block) : Res Unit :=
  match st with
  | .opened => require v.vetoBeforePassed .invalid
  | .passed => .error .invalid  -- TimelockExpired
  | .vetoTimelock e => require (!e.isExpired b) .invalid
  | _ => .error .invalid

/-- `execute_veto`, contracts/proposal/dao-proposal-multiple/src/contract.rs:293-364, with the checks of
packages/dao-voting/src/veto.rs:65-91. -/
def execVeto (s : State) (env : Env) (id : Nat) : Res (State × Out) := do
  let p0 ← orErr (s.proposals.get id) .notFound
  let p ← p0.updateStatus env.block
  let v ← orErr p.veto .invalid
  require (decide (env.sender = v.vetoer)) .unauthorized
  vetoCheck p.status v env.block
  let p' := { p with status := .vetoed }
  .ok ({ s with proposals := s.proposals.set id p' },
       { msgs := statusChangedHooks s.proposalHooks id p.status .vetoed
                  ++ completedHooks s.policy id .vetoed })

/-- The sender's right to execute, contracts/proposal/dao-proposal-multiple/src/contract.rs:480-491. -/
def senderCanExecute (s : State) (env : Env) (p : Proposal) : Res Bool :=
  if s.config.onlyMembersExecute then do
    let power ← queryPower env s.config.dao env.sender p.startHeight
    .ok (decide (power ≠ 0))
  else .ok true

/-- The status check of `execute_execute`,
contracts/proposal/dao-proposal-multiple/src/contract.rs:500-530. -/
def executeCheck (p : Proposal) (sender : Addr) (can : Bool) : Res Unit :=
  match p.status with
  | .passed => require can .unauthorized
  | .vetoTimelock _ => do
    let v ← orErr p.veto .invalid
    require (decide (v.vetoer = sender)) .invalid  -- Timelocked or Unauthorized
    require v.earlyExecute .invalid
  | _ => .error .invalid  -- NotPassed

/-- The messages of the winning option, contracts/proposal/dao-proposal-multiple/src/contract.rs:536-540;
a tie is an error. -/
def winningMsgs (p : Proposal) : Res (List Nat) := do
  let r ← p.voteResult
  match r with
  | .tie => .error (.custom 6)
  | .winner c => .ok c.msgs

/-- `execute_execute`, contracts/proposal/dao-proposal-multiple/src/contract.rs:468-584, together with
the `FailedProposalExecution` arm of `reply` (contract.rs:989-1004) when the DAO's submessage fails.
The reply id decodes to `id` again by `C16_decode_encode` (for ids below 2^61), so the model applies the
arm to `id` directly. -/
def execExecute (s : State) (env : Env) (id : Nat) (daoFails : Bool) : Res (State × Out) := do
  let p0 ← orErr (s.proposals.get id) .notFound
  let can ← senderCanExecute s env p0
  let p ← p0.updateStatus env.block
  executeCheck p env.sender can
  let msgs ← winningMsgs p
  let tail := statusChangedHooks s.proposalHooks id p.status .executed
                ++ completedHooks s.policy id .executed
  if msgs = [] then
    .ok ({ s with proposals := s.proposals.set id { p with status := .executed } },
         { msgs := tail })
  else
    let m := Msg.executeOnDao s.config.dao msgs
    if s.config.closeOnExecutionFailure then
      let p' := { p with status := if daoFails then .executionFailed else .executed }
      .ok ({ s with proposals := s.proposals.set id p' },
           { msgs := ⟨m, some (Reply.maskExecution id)⟩ :: tail })
    else if daoFails then .error (.custom 5)
    else
      .ok ({ s with proposals := s.proposals.set id { p with status := .executed } },
           { msgs := ⟨m, none⟩ :: tail })

/-- `execute_update_rationale`, contracts/proposal/dao-proposal-multiple/src/contract.rs:697-725. -/
def execUpdateRationale (s : State) (env : Env) (id : Nat) (r : Option Nat) : Res (State × Out) := do
  let b ← orErr (s.ballots.get (id, env.sender)) .notFound
  .ok ({ s with ballots := s.ballots.set (id, env.sender) { b with rationale := r } }, { msgs := [] })

/-- `execute_close`, contracts/proposal/dao-proposal-multiple/src/contract.rs:586-624. -/
def execClose (s : State) (env : Env) (id : Nat) : Res (State × Out) := do
  let p0 ← orErr (s.proposals.get id) .notFound
  let p ← p0.updateStatus env.block
  require (decide (p.status = .rejected)) .invalid
  .ok ({ s with proposals := s.proposals.set id { p with status := .closed } },
       { msgs := statusChangedHooks s.proposalHooks id .rejected .closed
                  ++ completedHooks s.policy id .closed })

/-- `execute_update_config`, contracts/proposal/dao-proposal-multiple/src/contract.rs:627-675. -/
def execUpdateConfig (s : State) (env : Env) (c : Config) : Res (State × Out) := do
  require (decide (env.sender = s.config.dao)) .unauthorized
  validateConfig c
  .ok ({ s with config := c }, { msgs := [] })

/-- `execute_update_proposal_creation_policy`,
contracts/proposal/dao-proposal-multiple/src/contract.rs:677-695. -/
def execUpdatePolicy (s : State) (env : Env) (i : PreProposeInfo) : Res (State × Out) := do
  require (decide (env.sender = s.config.dao)) .unauthorized
  .ok ({ s with policy := (initialPolicy i).1 }, { msgs := (initialPolicy i).2 })

/-- `execute_add_proposal_hook`, contracts/proposal/dao-proposal-multiple/src/contract.rs:727-746. -/
def execAddProposalHook (s : State) (env : Env) (a : Addr) : Res (State × Out) := do
  require (decide (env.sender = s.config.dao)) .unauthorized
  let h ← addHook s.proposalHooks a
  .ok ({ s with proposalHooks := h }, { msgs := [] })

/-- `execute_remove_proposal_hook`, contracts/proposal/dao-proposal-multiple/src/contract.rs:748-767. -/
def execRemoveProposalHook (s : State) (env : Env) (a : Addr) : Res (State × Out) := do
  require (decide (env.sender = s.config.dao)) .unauthorized
  let h ← removeHook s.proposalHooks a
  .ok ({ s with proposalHooks := h }, { msgs := [] })

/-- `execute_add_vote_hook`, contracts/proposal/dao-proposal-multiple/src/contract.rs:769-788. -/
def execAddVoteHook (s : State) (env : Env) (a : Addr) : Res (State × Out) := do
  require (decide (env.sender = s.config.dao)) .unauthorized
  let h ← addHook s.voteHooks a
  .ok ({ s with voteHooks := h }, { msgs := [] })

/-- `execute_remove_vote_hook`, contracts/proposal/dao-proposal-multiple/src/contract.rs:790-809. -/
def execRemoveVoteHook (s : State) (env : Env) (a : Addr) : Res (State × Out) := do
  require (decide (env.sender = s.config.dao)) .unauthorized
  let h ← removeHook s.voteHooks a
  .ok ({ s with voteHooks := h }, { msgs := [] })

/-- `reply`, contracts/proposal/dao-proposal-multiple/src/contract.rs:1005-1012 (the failed hook arms). -/
def replyProposalHook (s : State) (i : Nat) : Res (State × Out) := do
  let (h, _) ← removeHookByIndex s.proposalHooks i
  .ok ({ s with proposalHooks := h }, { msgs := [] })

/-- See `replyProposalHook`. -/
def replyVoteHook (s : State) (i : Nat) : Res (State × Out) := do
  let (h, _) ← removeHookByIndex s.voteHooks i
  .ok ({ s with voteHooks := h }, { msgs := [] })

/-- `reply`, `FailedPreProposeModuleHook` arm,
contracts/proposal/dao-proposal-multiple/src/contract.rs:1029-1049. -/
def replyPreProposeFailed (s : State) : Res (State × Out) :=
  match s.policy with
  | .anyone => .error .invalid
  | .module _ => .ok ({ s with policy := .anyone }, { msgs := [] })

/-- `execute`, contracts/proposal/dao-proposal-multiple/src/contract.rs:92-147, and `reply`,
contract.rs:986-1051. -/
def step (s : State) (env : Env) : Call → Res (State × Out)
  | .propose g c m v z => execPropose s env g c m v z
  | .vote id v r => execVote s env env.sender id v r
  | .updateRationale id r => execUpdateRationale s env id r
  | .execute id f => execExecute s env id f
  | .close id => execClose s env id
  | .veto id => execVeto s env id
  | .updateConfig c => execUpdateConfig s env c
  | .updatePreProposeInfo i => execUpdatePolicy s env i
  | .addProposalHook a => execAddProposalHook s env a
  | .removeProposalHook a => execRemoveProposalHook s env a
  | .addVoteHook a => execAddVoteHook s env a
  | .removeVoteHook a => execRemoveVoteHook s env a
  | .replyFailedProposalHook i => replyProposalHook s i
  | .replyFailedVoteHook i => replyVoteHook s i
  | .replyPreProposeInstantiated a => .ok ({ s with policy := .module a }, { msgs := [] })
  | .replyFailedPreProposeHook => replyPreProposeFailed s

/-- One successful call of a history, with the states before and after it. -/
structure Event where
  pre : State
  env : Env
  call : Call
  out : Out
  post : State

/-- `Run s b log s' b'`: from state `s` in block `b` the successful calls `log` (newest first) lead to
`s'`, the last of them in block `b'`; blocks never go back. Failed calls revert, so they leave no
trace. Replies may come at any time, which covers every order the runtime can produce. -/
inductive Run (s : State) (b : Block) : List Event → State → Block → Prop where
  | refl : Run s b [] s b
  | step {s1 s2 : State} {b1 : Block} {log : List Event} {env : Env} {call : Call} {out : Out}
      (hr : Run s b log s1 b1) (hb : b1.le env.block) (h : step s1 env call = .ok (s2, out)) :
      Run s b (⟨s1, env, call, out, s2⟩ :: log) s2 env.block

/-- Histories: `s` is reached from some instantiation by the calls `log`. -/
def Reach (s : State) (b : Block) (log : List Event) : Prop :=
  ∃ (env : Env) (c : Config) (i : PreProposeInfo) (s0 : State) (out : Out),
    instantiate env c i = .ok (s0, out) ∧ Run s0 env.block log s b

end Verif.Multiple
