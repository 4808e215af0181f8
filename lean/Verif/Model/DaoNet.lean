import Verif.Model.FullDao
import Mathlib.Data.Fintype.Basic
/-!
# A network of DAOs

Any number of DAOs of `Model/FullDao` which may be the admins of each other: SubDAOs, their SubDAOs, and so on. What one DAO says
to another comes out of its list of messages to send. `Model/SubDao` is the case of two.
-/

namespace Verif.DaoNet
open Verif.WholeDao (VotingModule)
open Verif.WholeCondorcet (Now)
open Verif.FullDao (Env)

/-- The DAOs, by name. -/
structure World {I : Type} (T : I → Type) where
  dao : ∀ i, FullDao.World (T i)

/-- Calls: something happens in one DAO; or the next message of a DAO, which is for another one, is carried out. -/
inductive Call {I : Type} (F D : I → Type) where
  | dao (i : I) (c : FullDao.Call (F i) (D i))
  | pass (i : I)

/-- What came of a call: in the DAO that acts, and in the one it calls. -/
structure Out where
  dao : FullDao.Out
  told : FullDao.Out

/-- Nothing came of it. -/
def silent : FullDao.Out := ⟨.none, []⟩

/-- How the messages of the DAOs are read: `r i n` is the message for the core of another DAO, if `other n` sent by DAO `i` is
one. -/
abbrev Reading (I : Type) := I → Nat → Option (I × DaoCore.Msg)

/-- The next message of DAO `i`, if it is for another DAO. -/
def next {I : Type} (r : Reading I) (i : I) : List DaoCore.Sub → Option (I × DaoCore.Msg)
  | .send (.other n) :: _ => r i n
  | _ => none

/-- Something that happens in one DAO alone: a message for another one is not carried out this way, and no DAO of the network
(`isDao`) calls its core this way. A new contract has a new address. -/
def alone {I F D : Type} (r : Reading I) (i : I) (isDao : Addr → Bool) (stack : List DaoCore.Sub) : FullDao.Call F D → Bool
  | .core (.deliver _) => (next r i stack).isNone
  | .core (.call sender _) => !isDao sender
  | .spawn a _ => !isDao a
  | _ => true

variable {I : Type} [DecidableEq I] [Fintype I] {T F D P : I → Type}

/-- An address is that of a DAO of the network. -/
def World.isDao (w : World T) (a : Addr) : Bool := decide (∃ i, (w.dao i).core.core.me = a)

/-- A step. Calls of the cores are `execute` of contracts/dao-dao-core/src/contract.rs:103-160; the sender of a message is the
DAO that sends it. -/
def step (U : ∀ i, VotingModule (T i) (F i) (D i) (P i)) (N : ∀ i, Now (T i)) (decode : I → Nat → DaoCore.CosmosMsg)
    (r : Reading I) (w : World T) (e : Env) (c : Call F D) : Res (World T × Out) :=
  match c with
  | .dao i c => do
    require (alone r i w.isDao (w.dao i).core.stack c) .invalid
    let (q, o) ← FullDao.step (U i) (N i) (decode i) (w.dao i) e c
    .ok (⟨Function.update w.dao i q⟩, ⟨o, silent⟩)
  | .pass i => do
    let (j, m) ← orErr (next r i (w.dao i).core.stack) .invalid
    require (decide (j ≠ i)) .invalid
    let (p, o) ← FullDao.step (U i) (N i) (decode i) (w.dao i) e (.core (.deliver ⟨0, []⟩))
    let (q, o') ← FullDao.step (U j) (N j) (decode j) (w.dao j) e (.core (.call (w.dao i).core.core.me m))
    .ok (⟨Function.update (Function.update w.dao i p) j q⟩, ⟨o, o'⟩)

/-- The beginning: the DAOs have no proposal modules yet, and each has an address of its own. -/
def Init (U : ∀ i, VotingModule (T i) (F i) (D i) (P i)) (b : Block) (w : World T) : Prop :=
  (∀ i, FullDao.Init (U i) b (w.dao i)) ∧ ∀ i j, i ≠ j → (w.dao i).core.core.me ≠ (w.dao j).core.core.me

/-- The system. -/
def sys (U : ∀ i, VotingModule (T i) (F i) (D i) (P i)) (N : ∀ i, Now (T i)) (decode : I → Nat → DaoCore.CosmosMsg)
    (r : Reading I) : Sys (World T) Env (Call F D) Out where
  init := Init U
  block := Env.block
  step := step U N decode r

/-- An event of a history. -/
abbrev Event {I : Type} (T F D : I → Type) := Ev (World T) Env (Call F D) Out

end Verif.DaoNet
