import Verif.Model.FullDao
/-!
# A DAO and its SubDAO

Two DAOs, each with its core contract, its voting module and any number of proposal modules. The parent is the admin of the
SubDAO: the core of the SubDAO obeys `ExecuteAdminMsgs` sent by the parent. What the parent sends to the SubDAO comes out of
the parent's list of messages to send.
-/

namespace Verif.SubDao
open Verif.WholeDao (VotingModule)
open Verif.WholeCondorcet (Now)
open Verif.FullDao (Env)

/-- The two DAOs. -/
structure World (S T : Type) where
  parent : FullDao.World S
  child : FullDao.World T

/-- Calls: something happens in one of the DAOs, or the next message of the parent, which is for the SubDAO, is carried
out. -/
inductive Call (E C F D : Type) where
  | parent (c : FullDao.Call E C)
  | child (c : FullDao.Call F D)
  | pass

/-- What came of a call in the two DAOs. -/
structure Out where
  parent : FullDao.Out
  child : FullDao.Out

/-- Nothing came of it. -/
def silent : FullDao.Out := ⟨.none, []⟩

/-- How the messages of the parent are read: `toChild n` is the message for the core of the SubDAO, if `other n` is one. -/
abbrev ToChild := Nat → Option DaoCore.Msg

/-- The next message of the parent, if it is for the SubDAO. -/
def next (toChild : ToChild) : List DaoCore.Sub → Option DaoCore.Msg
  | .send (.other n) :: _ => toChild n
  | _ => none

/-- Something that happens in the parent alone: a message for the SubDAO is not carried out this way. -/
def parentAlone {E C : Type} (toChild : ToChild) (stack : List DaoCore.Sub) : FullDao.Call E C → Bool
  | .core (.deliver _) => (next toChild stack).isNone
  | _ => true

/-- Something that happens in the SubDAO alone: the parent does not call its core this way. A new contract has a new
address. -/
def childAlone {F D : Type} (parent : Addr) : FullDao.Call F D → Bool
  | .core (.call sender _) => decide (sender ≠ parent)
  | .spawn a _ => decide (a ≠ parent)
  | _ => true

variable {S T E C O F D P : Type}

/-- A step. Calls of the two cores are `execute` of contracts/dao-dao-core/src/contract.rs:103-160; the sender of a message
is the DAO that sends it. -/
def step (V : VotingModule S E C O) (N : Now S) (U : VotingModule T F D P) (M : Now T) (decode : Nat → DaoCore.CosmosMsg)
    (decodeChild : Nat → DaoCore.CosmosMsg) (toChild : ToChild) (w : World S T) (e : Env) :
    Call E C F D → Res (World S T × Out)
  | .parent c => do
    require (parentAlone toChild w.parent.core.stack c) .invalid
    let (p, o) ← FullDao.step V N decode w.parent e c
    .ok ({ w with parent := p }, ⟨o, silent⟩)
  | .child c => do
    require (childAlone w.parent.core.core.me c) .invalid
    let (q, o) ← FullDao.step U M decodeChild w.child e c
    .ok ({ w with child := q }, ⟨silent, o⟩)
  | .pass => do
    let m ← orErr (next toChild w.parent.core.stack) .invalid
    let (p, o) ← FullDao.step V N decode w.parent e (.core (.deliver ⟨0, []⟩))
    let (q, o') ← FullDao.step U M decodeChild w.child e (.core (.call w.parent.core.core.me m))
    .ok (⟨p, q⟩, ⟨o, o'⟩)

/-- The beginning: both DAOs have no proposal modules yet, the parent is the admin of the SubDAO and nobody is nominated to
become it. -/
def Init (V : VotingModule S E C O) (U : VotingModule T F D P) (b : Block) (w : World S T) : Prop :=
  FullDao.Init V b w.parent ∧ FullDao.Init U b w.child ∧ w.parent.core.core.me ≠ w.child.core.core.me ∧
    w.child.core.core.admin = w.parent.core.core.me ∧ w.child.core.core.nominated = none

/-- The system. -/
def sys (V : VotingModule S E C O) (N : Now S) (U : VotingModule T F D P) (M : Now T) (decode : Nat → DaoCore.CosmosMsg)
    (decodeChild : Nat → DaoCore.CosmosMsg) (toChild : ToChild) : Sys (World S T) Env (Call E C F D) Out where
  init := Init V U
  block := Env.block
  step := step V N U M decode decodeChild toChild

/-- An event of a history. -/
abbrev Event (S T E C F D : Type) := Ev (World S T) Env (Call E C F D) Out

end Verif.SubDao
