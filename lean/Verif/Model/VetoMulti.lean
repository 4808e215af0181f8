import Verif.Model.WholeMulti
/-!
# A DAO with a multiple choice module whose proposals another DAO may veto

As `Model/VetoDao`, with dao-proposal-multiple in the DAO that is watched; the watcher has a single choice module. The watcher
may be the vetoer of proposals of the other one. What the watcher sends to the proposal module of the watched DAO on the strength of being the
vetoer comes out of the watcher's list of messages to send.
-/

namespace Verif.VetoMulti
open Verif.WholeDao (VotingModule)

/-- What a transaction sees: as for the watcher, and what other voting modules would answer to a question for the total power
without a height. -/
structure Env extends WholeDao.Env where
  totalNow : Addr → Nat

/-- What a transaction of the watched DAO sees. -/
def Env.multi (e : Env) : WholeMulti.Env := ⟨e.block, e.sender, e.power, e.totalNow, e.active, e.isCw20, e.isCw721⟩

/-- The two DAOs. -/
structure World (S T : Type) where
  watched : WholeMulti.World S
  watcher : WholeDao.World T

/-- Calls: something happens in one of the DAOs, or the next message of the watcher, which is for the proposal module of the
watched DAO, is carried out. `fails` is the fate of the messages of a proposal if one is executed, see `Multiple.Call`. -/
inductive Call (E C F D : Type) where
  | watched (c : WholeMulti.Call E C)
  | watcher (c : WholeDao.Call F D)
  | pass (fails : Bool)

/-- What came of a call in the two DAOs. -/
structure Out where
  watched : WholeMulti.Out
  watcher : WholeDao.Out

/-- Nothing came of it in the watcher. -/
def silent : WholeDao.Out := ⟨none, []⟩

/-- Nothing came of it in the watched DAO. -/
def still : WholeMulti.Out := ⟨none, []⟩

/-- What only the vetoer may ask of a proposal module: `ExecuteMsg::Veto`, and `ExecuteMsg::Execute` during the timelock,
packages/dao-voting/src/veto.rs:65-91 and contracts/proposal/dao-proposal-multiple/src/contract.rs:500-530. -/
inductive Order where
  | veto (id : Nat)
  | execute (id : Nat)
  deriving DecidableEq

/-- An order as a call. -/
def Order.call (fails : Bool) : Order → Multiple.Call
  | .veto id => .veto id
  | .execute id => .execute id fails

/-- How the messages of the watcher are read: `toOrder n` is the order to the proposal module of the watched DAO, if
`other n` is one. -/
abbrev ToOrder := Nat → Option Order

/-- The next message of the watcher, if it is an order. -/
def next (toOrder : ToOrder) : List DaoCore.Sub → Option Order
  | .send (.other n) :: _ => toOrder n
  | _ => none

/-- Something that happens in the watcher alone: an order is not carried out this way. -/
def watcherAlone {F D : Type} (toOrder : ToOrder) (stack : List DaoCore.Sub) : WholeDao.Call F D → Bool
  | .core (.deliver _) => (next toOrder stack).isNone
  | _ => true

/-- Something that happens in the watched DAO alone: the watcher does not give orders this way. Everything else it does there,
such as voting if it is a member, it may do at any time. -/
def watchedAlone {E C : Type} (watcher sender : Addr) : WholeMulti.Call E C → Bool
  | .prop (.veto _) => decide (sender ≠ watcher)
  | .prop (.execute _ _) => decide (sender ≠ watcher)
  | _ => true

variable {S T E C O F D P : Type}

/-- A step. Orders are calls of `execute`, contracts/proposal/dao-proposal-multiple/src/contract.rs:92-147; the sender of a
message is the DAO that sends it. -/
def step (V : VotingModule S E C O) (N : WholeMulti.TotalNow S) (U : VotingModule T F D P) (decode decodeWatcher : Nat → DaoCore.CosmosMsg)
    (toOrder : ToOrder) (w : World S T) (e : Env) : Call E C F D → Res (World S T × Out)
  | .watched c => do
    require (watchedAlone w.watcher.core.core.me e.sender c) .invalid
    let (p, o) ← WholeMulti.step V N decode w.watched e.multi c
    .ok ({ w with watched := p }, ⟨o, silent⟩)
  | .watcher c => do
    require (watcherAlone toOrder w.watcher.core.stack c) .invalid
    let (q, o) ← WholeDao.step U decodeWatcher w.watcher e.toEnv c
    .ok ({ w with watcher := q }, ⟨still, o⟩)
  | .pass fails => do
    let m ← orErr (next toOrder w.watcher.core.stack) .invalid
    let (q, o) ← WholeDao.step U decodeWatcher w.watcher e.toEnv (.core (.deliver ⟨0, []⟩))
    let (p, o') ← WholeMulti.step V N decode w.watched ({ e with sender := w.watcher.core.core.me } : Env).multi (.prop (m.call fails))
    .ok (⟨p, q⟩, ⟨o', o⟩)

/-- The beginning: both DAOs exist, in any states they can be in by then. -/
def Init (V : VotingModule S E C O) (N : WholeMulti.TotalNow S) (U : VotingModule T F D P) (decode decodeWatcher : Nat → DaoCore.CosmosMsg) (b : Block)
    (w : World S T) : Prop :=
  (∃ b1 l, (WholeMulti.sys V N decode).Reach w.watched b1 l ∧ b1.le b) ∧
    ∃ b1 l, (WholeDao.sys U decodeWatcher).Reach w.watcher b1 l ∧ b1.le b

/-- The system. -/
def sys (V : VotingModule S E C O) (N : WholeMulti.TotalNow S) (U : VotingModule T F D P) (decode decodeWatcher : Nat → DaoCore.CosmosMsg)
    (toOrder : ToOrder) : Sys (World S T) Env (Call E C F D) Out where
  init := Init V N U decode decodeWatcher
  block := fun e => e.block
  step := step V N U decode decodeWatcher toOrder

/-- An event of a history. -/
abbrev Event (S T E C F D : Type) := Ev (World S T) Env (Call E C F D) Out

end Verif.VetoMulti
