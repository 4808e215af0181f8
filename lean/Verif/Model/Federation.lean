import Verif.Model.FullDao
import Mathlib.Data.Fintype.Basic
/-!
# DAOs that are members of DAOs

Any number of DAOs of `Model/FullDao` that may be members of each other: they make proposals in other DAOs, vote there, and call
their contracts in any other way. What one DAO says to the core or to a proposal module of another comes out of its list of
messages to send. `Model/DaoNet` is the case in which they only call the cores of others.

Not modelled: the calls of DAOs to the voting modules of others (staking) are not tied to what the DAO sends; nor are their calls
to pre-propose modules, which then name the DAO as the proposer.
-/

namespace Verif.Federation
open Verif.WholeDao (VotingModule)
open Verif.WholeCondorcet (Now)
open Verif.FullDao (Env)

/-- The DAOs, by name. -/
structure World {I : Type} (T : I → Type) where
  dao : ∀ i, FullDao.World (T i)

/-- What one DAO can say to another: to its core, or to a proposal module (`ExecuteMsg` of
contracts/dao-dao-core/src/contract.rs:103-160, contracts/proposal/dao-proposal-single/src/contract.rs:94-150,
contracts/proposal/dao-proposal-multiple/src/contract.rs:91-147, contracts/proposal/dao-proposal-condorcet/src/contract.rs:83-98). -/
inductive Order where
  | core (m : DaoCore.Msg)
  | single (a : Addr) (c : Single.Call)
  | multi (a : Addr) (c : Multiple.Call)
  | condorcet (a : Addr) (c : Condorcet.Call)

/-- The call, if the DAO at `me` gives the order. -/
def Order.call {F D : Type} (me : Addr) : Order → FullDao.Call F D
  | .core m => .core (.call me m)
  | .single a c => .single a c
  | .multi a c => .multi a c
  | .condorcet a c => .condorcet a c

/-- Calls: something happens in one DAO; or the next message of a DAO, which is for another one, is carried out. -/
inductive Call {I : Type} (F D : I → Type) where
  | dao (i : I) (c : FullDao.Call (F i) (D i))
  | pass (i : I)

/-- What came of a call: in the DAO that acts, and in the one it calls. -/
structure Out where
  dao : FullDao.Out
  told : FullDao.Out

/-- Nothing came of it. -/
def silent : FullDao.Out := ⟨.none, []⟩

/-- How the messages of the DAOs are read: `r i n` is what is said to another DAO, if `other n` sent by DAO `i` is for one. -/
abbrev Reading (I : Type) := I → Nat → Option (I × Order)

/-- The next message of DAO `i`, if it is for another DAO. -/
def next {I : Type} (r : Reading I) (i : I) : List DaoCore.Sub → Option (I × Order)
  | .send (.other n) :: _ => r i n
  | _ => none

/-- Something that happens in one DAO alone: a message for another one is not carried out this way, and no DAO of the
federation (`isDao`) calls its core or a proposal module this way. A new contract has a new address. -/
def alone {I F D : Type} (r : Reading I) (i : I) (isDao : Addr → Bool) (sender : Addr) (stack : List DaoCore.Sub) :
    FullDao.Call F D → Bool
  | .core (.deliver _) => (next r i stack).isNone
  | .core (.call s _) => !isDao s
  | .spawn a _ => !isDao a
  | .vote _ _ => true
  | .single _ _ => !isDao sender
  | .multi _ _ => !isDao sender
  | .condorcet _ _ => !isDao sender

variable {I : Type} [DecidableEq I] [Fintype I] {T F D P : I → Type}

/-- An address is that of a DAO of the federation. -/
def World.isDao (w : World T) (a : Addr) : Bool := decide (∃ i, (w.dao i).core.core.me = a)

/-- A step. The sender of a message is the DAO that sends it: contracts/dao-dao-core/src/contract.rs:215-232. -/
def step (U : ∀ i, VotingModule (T i) (F i) (D i) (P i)) (N : ∀ i, Now (T i)) (decode : I → Nat → DaoCore.CosmosMsg)
    (r : Reading I) (w : World T) (e : Env) (c : Call F D) : Res (World T × Out) :=
  match c with
  | .dao i c => do
    require (alone r i w.isDao e.sender (w.dao i).core.stack c) .invalid
    let (q, o) ← FullDao.step (U i) (N i) (decode i) (w.dao i) e c
    .ok (⟨Function.update w.dao i q⟩, ⟨o, silent⟩)
  | .pass i => do
    let (j, m) ← orErr (next r i (w.dao i).core.stack) .invalid
    require (decide (j ≠ i)) .invalid
    let (p, o) ← FullDao.step (U i) (N i) (decode i) (w.dao i) e (.core (.deliver ⟨0, []⟩))
    let (q, o') ← FullDao.step (U j) (N j) (decode j) (w.dao j) { e with sender := (w.dao i).core.core.me }
      (m.call (w.dao i).core.core.me)
    .ok (⟨Function.update (Function.update w.dao i p) j q⟩, ⟨o, o'⟩)

/-- The beginning: the DAOs have no proposal modules yet, and each has an address of its own. -/
def Init (U : ∀ i, VotingModule (T i) (F i) (D i) (P i)) (b : Block) (w : World T) : Prop :=
  (∀ i, FullDao.Init (U i) b (w.dao i)) ∧ ∀ i j, i ≠ j → (w.dao i).core.core.me ≠ (w.dao j).core.core.me

/-- The system. -/
def sys (U : ∀ i, VotingModule (T i) (F i) (D i) (P i)) (N : ∀ i, Now (T i)) (decode : I → Nat → DaoCore.CosmosMsg)
    (r : Reading I) : Sys (World T) Env (Call F D) Out where
  init := Init U
  block := Env.block
  step := step U N decode r

/-- An event of a history. -/
abbrev Event {I : Type} (T F D : I → Type) := Ev (World T) Env (Call F D) Out

end Verif.Federation
