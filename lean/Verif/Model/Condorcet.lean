import Verif.Base.Map
import Verif.Model.Voting
/-!
# Model of `contracts/proposal/dao-proposal-condorcet`

Simplifications, all of them: messages are opaque numbers; event attributes and the cw2 version are
dropped. Queries to the DAO and the voting module are answered by the environment; an answer that does
not fit a `Uint128` is an error, as it does not parse. `u32` and `usize` arithmetic on candidate numbers
is done in `Nat`: `newM` fails when `n * (n - 1)` leaves `u32`, and with that bound no other product does
(`Verif.Condorcet.index_u32`). `usize as u32` truncation of the number of choices is not modelled (it
needs more than 2^32 choices in one message).
-/

namespace Verif.Condorcet
open Verif Verif.Voting

/-- `u32::MAX + 1`. -/
def U32 : Nat := 4294967296

/-- `Cell`, contracts/proposal/dao-proposal-condorcet/src/cell.rs:16-22. -/
inductive Cell where
  | positive (n : Nat)
  | zero
  | negative (n : Nat)
  deriving DecidableEq, Repr

/-- `Cell::increment`, contracts/proposal/dao-proposal-condorcet/src/cell.rs:26-40. -/
def Cell.increment (c : Cell) (amount : Nat) : Res Cell :=
  match c with
  | .positive n => do let m ← add128 n amount; .ok (.positive m)
  | .zero => .ok (.positive amount)
  | .negative n =>
    if amount = n then .ok .zero
    else if amount > n then .ok (.positive (amount - n))
    else .ok (.negative (n - amount))

/-- `Cell::decrement`, contracts/proposal/dao-proposal-condorcet/src/cell.rs:42-56. -/
def Cell.decrement (c : Cell) (amount : Nat) : Res Cell :=
  match c with
  | .positive n =>
    if amount = n then .ok .zero
    else if amount > n then .ok (.negative (amount - n))
    else .ok (.positive (n - amount))
  | .zero => .ok (.negative amount)
  | .negative n => do let m ← add128 n amount; .ok (.negative m)

/-- `Cell::invert`, contracts/proposal/dao-proposal-condorcet/src/cell.rs:58-64. -/
def Cell.invert : Cell → Cell
  | .positive n => .negative n
  | .zero => .zero
  | .negative n => .positive n

/-- `M`, contracts/proposal/dao-proposal-condorcet/src/m.rs:21-30. -/
structure M where
  cells : List Cell
  n : Nat
  deriving DecidableEq, Repr

/-- `M::new`, contracts/proposal/dao-proposal-condorcet/src/m.rs:49-63. -/
def newM (n : Nat) : Res M :=
  if n * (n - 1) < U32 then .ok ⟨List.replicate (n * (n - 1) / 2) .zero, n⟩ else .error .overflow

/-- `M::index`, contracts/proposal/dao-proposal-condorcet/src/m.rs:69-90; `x - (y + 1)` underflows
unless `y < x`. -/
def M.index (m : M) (x y : Nat) : Res Nat :=
  if y < x then .ok (y * m.n - (y + 1) * y / 2 + (x - (y + 1))) else .error .underflow

/-- The branch of `M::get` for the upper triangle, m.rs:95-98. -/
def M.upper (m : M) (x y : Nat) : Res Cell := do
  let i ← m.index x y
  orErr m.cells[i]? .panic

/-- `M::get`, contracts/proposal/dao-proposal-condorcet/src/m.rs:92-99. -/
def M.get (m : M) (x y : Nat) : Res Cell :=
  if x < y then do let c ← m.upper y x; .ok c.invert
  else m.upper x y

/-- Replace a cell of the upper triangle, m.rs:106-107 and 116-117. -/
def M.bump (m : M) (x y : Nat) (f : Cell → Res Cell) : Res M := do
  let i ← m.index x y
  let c ← orErr m.cells[i]? .panic
  let c' ← f c
  .ok { m with cells := m.cells.set i c' }

/-- `M::increment`, contracts/proposal/dao-proposal-condorcet/src/m.rs:101-109. -/
def M.increment (m : M) (x y amount : Nat) : Res M :=
  if x < y then m.bump y x (·.decrement amount) else m.bump x y (·.increment amount)

/-- `M::decrement`, contracts/proposal/dao-proposal-condorcet/src/m.rs:111-119. -/
def M.decrement (m : M) (x y amount : Nat) : Res M :=
  if x < y then m.bump y x (·.increment amount) else m.bump x y (·.decrement amount)

/-- `Stats`, contracts/proposal/dao-proposal-condorcet/src/m.rs:32-46. -/
inductive Stats where
  | positiveColumn (col minMargin : Nat)
  | noPositiveColumn (noWinnable : Bool)
  deriving DecidableEq, Repr

/-- The local variables of the column loop, contracts/proposal/dao-proposal-condorcet/src/m.rs:132-134. -/
structure ColStats where
  distance : Nat
  minMargin : Nat
  maxNegative : Nat
  deriving DecidableEq, Repr

/-- The match of the row loop, contracts/proposal/dao-proposal-condorcet/src/m.rs:137-150. The 256-bit
sum cannot overflow: fewer than 2^32 terms of at most 2^128. -/
def ColStats.add (a : ColStats) : Cell → ColStats
  | .positive p => if p < a.minMargin then { a with minMargin := p } else a
  | .negative v =>
    { a with maxNegative := if v > a.maxNegative then v else a.maxNegative
             distance := a.distance + (v + 1) }
  | .zero => { a with distance := a.distance + 1 }

/-- The row loop, contracts/proposal/dao-proposal-condorcet/src/m.rs:135-153. -/
def M.rowLoop (m : M) (col : Nat) : List Nat → ColStats → Res ColStats
  | [], a => .ok a
  | row :: rows, a =>
    if row ≠ col then do
      let c ← m.get col row
      m.rowLoop col rows (a.add c)
    else m.rowLoop col rows a

/-- Claims A and B are both false, contracts/proposal/dao-proposal-condorcet/src/m.rs:163-169. -/
def winnable (a : ColStats) (n outstanding : Nat) : Bool :=
  decide (a.distance ≤ outstanding * (n - 1)) && decide (a.maxNegative < outstanding)

/-- The column loop, contracts/proposal/dao-proposal-condorcet/src/m.rs:131-170. -/
def M.colLoop (m : M) (outstanding : Nat) : List Nat → Bool → Res Stats
  | [], noWinnable => .ok (.noPositiveColumn noWinnable)
  | col :: cols, noWinnable => do
    let a ← m.rowLoop col (List.range m.n) ⟨0, U128 - 1, 0⟩
    if a.distance = 0 then .ok (.positiveColumn col a.minMargin)
    else m.colLoop outstanding cols (if winnable a m.n outstanding then false else noWinnable)

/-- `M::stats`, contracts/proposal/dao-proposal-condorcet/src/m.rs:128-174. -/
def M.stats (m : M) (outstanding : Nat) : Res Stats := m.colLoop outstanding (List.range m.n) true

/-- The loop of `Vote::new`, contracts/proposal/dao-proposal-condorcet/src/vote.rs:18-27. -/
def checkRanking (n : Nat) (seen : List Nat) : List Nat → Res (List Nat)
  | [] => .ok seen
  | v :: vs =>
    if v ≥ n then .error .invalid
    else if v ∈ seen then .error .invalid
    else checkRanking n (seen ++ [v]) vs

/-- `Vote::new`, contracts/proposal/dao-proposal-condorcet/src/vote.rs:10-29. -/
def newVote (vote : List Nat) (n : Nat) : Res (List Nat) :=
  if vote.length ≠ n then .error .invalid else checkRanking n [] vote

/-- `Winner`, contracts/proposal/dao-proposal-condorcet/src/tally.rs:35-42. -/
inductive Winner where
  | never
  | none
  | some (c : Nat)
  | undisputed (c : Nat)
  deriving DecidableEq, Repr

/-- `Tally`, contracts/proposal/dao-proposal-condorcet/src/tally.rs:21-33. -/
structure Tally where
  m : M
  expiration : Expiration
  startHeight : Nat
  outstanding : Nat
  winner : Winner
  deriving DecidableEq, Repr

/-- `Tally::winner`, contracts/proposal/dao-proposal-condorcet/src/tally.rs:97-116. -/
def computeWinner (m : M) (outstanding : Nat) : Res Winner := do
  let st ← m.stats outstanding
  match st with
  | .positiveColumn col minMargin =>
    if minMargin > outstanding then .ok (.undisputed col) else .ok (.some col)
  | .noPositiveColumn noWinnable => if noWinnable then .ok .never else .ok .none

/-- `Tally::new`, contracts/proposal/dao-proposal-condorcet/src/tally.rs:45-64. -/
def newTally (candidates totalPower startHeight : Nat) (expiration : Expiration) : Res Tally := do
  let m ← newM candidates
  let w ← computeWinner m totalPower
  .ok ⟨m, expiration, startHeight, totalPower, w⟩

/-- The inner loop of `Tally::add_vote`,
contracts/proposal/dao-proposal-condorcet/src/tally.rs:89-91. -/
def recordDefeats (pref power : Nat) : List Nat → M → Res M
  | [], m => .ok m
  | d :: ds, m => do
    let m' ← m.decrement pref d power
    recordDefeats pref power ds m'

/-- The outer loop of `Tally::add_vote`, contracts/proposal/dao-proposal-condorcet/src/tally.rs:85-92;
`before` is the part of the ranking already passed. -/
def recordVote (power : Nat) (before : List Nat) : List Nat → M → Res M
  | [], m => .ok m
  | c :: cs, m => do
    let m' ← recordDefeats c power before m
    recordVote power (before ++ [c]) cs m'

/-- `Tally::add_vote`, contracts/proposal/dao-proposal-condorcet/src/tally.rs:84-95. -/
def Tally.addVote (t : Tally) (vote : List Nat) (power : Nat) : Res Tally := do
  let m ← recordVote power [] vote t.m
  let o ← sub128 t.outstanding power
  let w ← computeWinner m o
  .ok { t with m := m, outstanding := o, winner := w }

/-- `Status`, contracts/proposal/dao-proposal-condorcet/src/proposal.rs:31-47. -/
inductive Status where
  | opened
  | rejected
  | passed (winner : Nat)
  | executed
  | closed
  | executionFailed
  deriving DecidableEq, Repr

/-- `Proposal`, contracts/proposal/dao-proposal-condorcet/src/proposal.rs:15-29. A choice is the list
of its messages. -/
structure Proposal where
  lastStatus : Status
  proposer : Addr
  quorum : PercentageThreshold
  minVotingPeriod : Option Expiration
  closeOnExecutionFailure : Bool
  totalPower : Nat
  id : Nat
  choices : List (List Nat)
  deriving DecidableEq, Repr

/-- The decision of `status` for an open proposal,
contracts/proposal/dao-proposal-condorcet/src/proposal.rs:78-105. -/
def decideStatus (w : Winner) (expired quorum : Bool) : Status :=
  if expired && !quorum then .rejected
  else match w with
    | .never => .rejected
    | .none => if expired then .rejected else .opened
    | .some c => if expired && quorum then .passed c else .opened
    | .undisputed c => if quorum then .passed c else .opened

/-- The minimum voting period is set and not over,
contracts/proposal/dao-proposal-condorcet/src/proposal.rs:63-68. -/
def Proposal.minPeriodRunning (p : Proposal) (b : Block) : Bool :=
  match p.minVotingPeriod with
  | some m => !m.isExpired b
  | none => false

/-- `status`, contracts/proposal/dao-proposal-condorcet/src/proposal.rs:55-108. -/
def Proposal.status (p : Proposal) (t : Tally) (b : Block) : Res Status :=
  match p.lastStatus with
  | .opened =>
    if p.minPeriodRunning b then .ok .opened
    else do
      let voted ← sub128 p.totalPower t.outstanding
      let q ← doesVoteCountPass voted p.totalPower p.quorum
      .ok (decideStatus t.winner (t.expiration.isExpired b) q)
  | s => .ok s

/-- `Config`, contracts/proposal/dao-proposal-condorcet/src/config.rs:18-24. -/
structure Config where
  quorum : PercentageThreshold
  votingPeriod : Duration
  minVotingPeriod : Option Duration
  closeOnExecutionFailure : Bool
  deriving DecidableEq, Repr

/-- `UncheckedConfig::into_checked`, contracts/proposal/dao-proposal-condorcet/src/config.rs:26-38. -/
def Config.intoChecked (c : Config) : Res Config := do
  validateQuorum c.quorum
  validateVotingPeriod c.minVotingPeriod c.votingPeriod
  .ok c

/-- The storage of the contract, contracts/proposal/dao-proposal-condorcet/src/state.rs:6-11. -/
structure State where
  dao : Addr
  config : Config
  tallies : AMap Nat Tally
  proposals : AMap Nat Proposal
  votes : AMap (Nat × Addr) (List Nat)
  deriving DecidableEq, Repr

/-- `next_proposal_id`, contracts/proposal/dao-proposal-condorcet/src/state.rs:13-19: one more than the
largest key. -/
def nextProposalId (s : State) : Res Nat :=
  let top := (s.proposals.map Prod.fst).foldl max 0
  if top + 1 < U32 then .ok (top + 1) else .error .overflow

/-- What a call sees. `power d a h` is the voting power of `a` at height `h` reported through DAO `d`;
`powerNow` and `totalNow` answer the queries that name no height. -/
structure Env where
  block : Block
  sender : Addr
  power : Addr → Addr → Nat → Nat
  powerNow : Addr → Addr → Nat
  totalNow : Addr → Nat

/-- `get_voting_power` / `get_total_power`, packages/dao-voting/src/voting.rs:191-224: the answer must
parse. -/
def answer (n : Nat) : Res Nat := if n < U128 then .ok n else .error .invalid

/-- The calls. `execute` carries the fate of the message it sends to the DAO, see
`Verif.Single.Call`. -/
inductive Call where
  | propose (choices : List (List Nat))
  | vote (id : Nat) (vote : List Nat)
  | execute (id : Nat) (daoFails : Bool)
  | close (id : Nat)
  | setConfig (c : Config)
  deriving DecidableEq, Repr

/-- What a call returns: the id of a new proposal, and the messages sent to the DAO. -/
structure Out where
  newId : Option Nat := none
  toDao : Option (Addr × List Nat) := none
  deriving DecidableEq, Repr

/-- `instantiate`, contracts/proposal/dao-proposal-condorcet/src/contract.rs:22-37. -/
def instantiate (env : Env) (c : Config) : Res State := do
  let c ← c.intoChecked
  .ok { dao := env.sender, config := c, tallies := [], proposals := [], votes := [] }

/-- `Proposal::new`, contracts/proposal/dao-proposal-condorcet/src/proposal.rs:111-131. -/
def freshProposal (b : Block) (c : Config) (proposer : Addr) (id : Nat) (choices : List (List Nat))
    (total : Nat) : Proposal :=
  { lastStatus := .opened, proposer := proposer, quorum := c.quorum,
    minVotingPeriod := c.minVotingPeriod.map (·.after b),
    closeOnExecutionFailure := c.closeOnExecutionFailure, totalPower := total, id := id,
    choices := choices }

/-- `execute_propose`, contracts/proposal/dao-proposal-condorcet/src/contract.rs:100-141. -/
def execPropose (s : State) (env : Env) (choices : List (List Nat)) : Res (State × Out) := do
  let pw ← answer (env.powerNow s.dao env.sender)
  require (decide (pw ≠ 0)) .unauthorized
  let id ← nextProposalId s
  let total ← answer (env.totalNow s.dao)
  require (decide (choices ≠ [])) .invalid
  let t ← newTally (choices ++ [[]]).length total env.block.height (s.config.votingPeriod.after env.block)
  let p := freshProposal env.block s.config env.sender id (choices ++ [[]]) total
  let st ← p.status t env.block
  .ok ({ s with tallies := s.tallies.set id t
                proposals := s.proposals.set id { p with lastStatus := st } },
       { newId := some id })

/-- `execute_vote`, contracts/proposal/dao-proposal-condorcet/src/contract.rs:143-177. -/
def execVote (s : State) (env : Env) (id : Nat) (vote : List Nat) : Res (State × Out) := do
  let t ← orErr (s.tallies.get id) .notFound
  let pw ← answer (env.power s.dao env.sender t.startHeight)
  require (decide (pw ≠ 0)) .unauthorized
  require (decide (s.votes.get (id, env.sender) = none)) (.custom 1)  -- Voted
  require (!t.expiration.isExpired env.block) (.custom 2)  -- Expired
  let v ← newVote vote t.m.n
  let t' ← t.addVote v pw
  .ok ({ s with votes := s.votes.set (id, env.sender) v, tallies := s.tallies.set id t' }, {})

/-- `Proposal::set_executed`, contracts/proposal/dao-proposal-condorcet/src/proposal.rs:156-173, and the
reply when the DAO's submessage fails (proposal.rs:175-179, contract.rs:266-284). -/
def setExecuted (p : Proposal) (daoFails : Bool) : Res Proposal :=
  if daoFails then
    if p.closeOnExecutionFailure then .ok { p with lastStatus := .executionFailed }
    else .error (.custom 5)
  else .ok { p with lastStatus := .executed }

/-- `execute_execute`, contracts/proposal/dao-proposal-condorcet/src/contract.rs:179-210. -/
def execExecute (s : State) (env : Env) (id : Nat) (daoFails : Bool) : Res (State × Out) := do
  let t ← orErr (s.tallies.get id) .notFound
  let pw ← answer (env.power s.dao env.sender t.startHeight)
  require (decide (pw ≠ 0)) .unauthorized
  let p ← orErr (s.proposals.get id) .notFound
  let st ← p.status t env.block
  match st with
  | .passed w => do
    let msgs ← orErr p.choices[w]? .panic
    let p' ← setExecuted p daoFails
    .ok ({ s with proposals := s.proposals.set id p' }, { toDao := some (s.dao, msgs) })
  | _ => .error .invalid  -- Unexecutable

/-- `execute_close`, contracts/proposal/dao-proposal-condorcet/src/contract.rs:212-231. -/
def execClose (s : State) (env : Env) (id : Nat) : Res (State × Out) := do
  let t ← orErr (s.tallies.get id) .notFound
  let p ← orErr (s.proposals.get id) .notFound
  let st ← p.status t env.block
  require (decide (st = .rejected)) .invalid
  .ok ({ s with proposals := s.proposals.set id { p with lastStatus := .closed } }, {})

/-- `execute_set_config`, contracts/proposal/dao-proposal-condorcet/src/contract.rs:233-246. -/
def execSetConfig (s : State) (env : Env) (c : Config) : Res (State × Out) := do
  require (decide (env.sender = s.dao)) .unauthorized
  let c ← c.intoChecked
  .ok ({ s with config := c }, {})

/-- `execute`, contracts/proposal/dao-proposal-condorcet/src/contract.rs:83-98, and `reply`,
contract.rs:266-284. -/
def step (s : State) (env : Env) : Call → Res (State × Out)
  | .propose c => execPropose s env c
  | .vote id v => execVote s env id v
  | .execute id f => execExecute s env id f
  | .close id => execClose s env id
  | .setConfig c => execSetConfig s env c

/-- One successful call of a history, with the states before and after it. -/
structure Event where
  pre : State
  env : Env
  call : Call
  out : Out
  post : State

/-- `Run s b log s' b'`: from state `s` in block `b` the successful calls `log` (newest first) lead to
`s'`, the last of them in block `b'`; blocks never go back. Failed calls revert, so they leave no
trace. -/
inductive Run (s : State) (b : Block) : List Event → State → Block → Prop where
  | refl : Run s b [] s b
  | step {s1 s2 : State} {b1 : Block} {log : List Event} {env : Env} {call : Call} {out : Out}
      (hr : Run s b log s1 b1) (hb : b1.le env.block) (h : step s1 env call = .ok (s2, out)) :
      Run s b (⟨s1, env, call, out, s2⟩ :: log) s2 env.block

/-- Histories: `s` is reached from some instantiation by the calls `log`. -/
def Reach (s : State) (b : Block) (log : List Event) : Prop :=
  ∃ (env : Env) (c : Config) (s0 : State), instantiate env c = .ok s0 ∧ Run s0 env.block log s b

end Verif.Condorcet
