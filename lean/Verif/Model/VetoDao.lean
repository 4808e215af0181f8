import Verif.Model.WholeDao
/-!
# A DAO whose proposals another DAO may veto

Two DAOs, each with its core contract, a single choice proposal module and a voting module. The watcher may be the vetoer of
proposals of the other one. What the watcher sends to the proposal module of the watched DAO on the strength of being the
vetoer comes out of the watcher's list of messages to send.
-/

namespace Verif.VetoDao
open Verif.WholeDao (VotingModule Env)

/-- The two DAOs. -/
structure World (S T : Type) where
  watched : WholeDao.World S
  watcher : WholeDao.World T

/-- Calls: something happens in one of the DAOs, or the next message of the watcher, which is for the proposal module of the
watched DAO, is carried out. `fails` is the fate of the messages of a proposal if one is executed, see `Single.Call`. -/
inductive Call (E C F D : Type) where
  | watched (c : WholeDao.Call E C)
  | watcher (c : WholeDao.Call F D)
  | pass (fails : Bool)

/-- What came of a call in the two DAOs. -/
structure Out where
  watched : WholeDao.Out
  watcher : WholeDao.Out

/-- Nothing came of it. -/
def silent : WholeDao.Out := ⟨none, []⟩

/-- What only the vetoer may ask of a proposal module: `ExecuteMsg::Veto`, and `ExecuteMsg::Execute` during the timelock,
packages/dao-voting/src/veto.rs:65-91 and contracts/proposal/dao-proposal-single/src/contract.rs:390-422. -/
inductive Order where
  | veto (id : Nat)
  | execute (id : Nat)
  deriving DecidableEq

/-- An order as a call. -/
def Order.call (fails : Bool) : Order → Single.Call
  | .veto id => .veto id
  | .execute id => .execute id fails

/-- How the messages of the watcher are read: `toOrder n` is the order to the proposal module of the watched DAO, if
`other n` is one. -/
abbrev ToOrder := Nat → Option Order

/-- The next message of the watcher, if it is an order. -/
def next (toOrder : ToOrder) : List DaoCore.Sub → Option Order
  | .send (.other n) :: _ => toOrder n
  | _ => none

/-- Something that happens in the watcher alone: an order is not carried out this way. -/
def watcherAlone {F D : Type} (toOrder : ToOrder) (stack : List DaoCore.Sub) : WholeDao.Call F D → Bool
  | .core (.deliver _) => (next toOrder stack).isNone
  | _ => true

/-- Something that happens in the watched DAO alone: the watcher does not give orders this way. Everything else it does there,
such as voting if it is a member, it may do at any time. -/
def watchedAlone {E C : Type} (watcher sender : Addr) : WholeDao.Call E C → Bool
  | .prop (.veto _) => decide (sender ≠ watcher)
  | .prop (.execute _ _) => decide (sender ≠ watcher)
  | _ => true

variable {S T E C O F D P : Type}

/-- A step. Orders are calls of `execute`, contracts/proposal/dao-proposal-single/src/contract.rs:95-150; the sender of a
message is the DAO that sends it. -/
def step (V : VotingModule S E C O) (U : VotingModule T F D P) (decode decodeWatcher : Nat → DaoCore.CosmosMsg)
    (toOrder : ToOrder) (w : World S T) (e : Env) : Call E C F D → Res (World S T × Out)
  | .watched c => do
    require (watchedAlone w.watcher.core.core.me e.sender c) .invalid
    let (p, o) ← WholeDao.step V decode w.watched e c
    .ok ({ w with watched := p }, ⟨o, silent⟩)
  | .watcher c => do
    require (watcherAlone toOrder w.watcher.core.stack c) .invalid
    let (q, o) ← WholeDao.step U decodeWatcher w.watcher e c
    .ok ({ w with watcher := q }, ⟨silent, o⟩)
  | .pass fails => do
    let m ← orErr (next toOrder w.watcher.core.stack) .invalid
    let (q, o) ← WholeDao.step U decodeWatcher w.watcher e (.core (.deliver ⟨0, []⟩))
    let (p, o') ← WholeDao.step V decode w.watched { e with sender := w.watcher.core.core.me } (.prop (m.call fails))
    .ok (⟨p, q⟩, ⟨o', o⟩)

/-- The beginning: both DAOs exist, in any states they can be in by then. -/
def Init (V : VotingModule S E C O) (U : VotingModule T F D P) (decode decodeWatcher : Nat → DaoCore.CosmosMsg) (b : Block)
    (w : World S T) : Prop :=
  (∃ b1 l, (WholeDao.sys V decode).Reach w.watched b1 l ∧ b1.le b) ∧
    ∃ b1 l, (WholeDao.sys U decodeWatcher).Reach w.watcher b1 l ∧ b1.le b

/-- The system. -/
def sys (V : VotingModule S E C O) (U : VotingModule T F D P) (decode decodeWatcher : Nat → DaoCore.CosmosMsg)
    (toOrder : ToOrder) : Sys (World S T) Env (Call E C F D) Out where
  init := Init V U decode decodeWatcher
  block := Env.block
  step := step V U decode decodeWatcher toOrder

/-- An event of a history. -/
abbrev Event (S T E C F D : Type) := Ev (World S T) Env (Call E C F D) Out

end Verif.VetoDao
