import Verif.Model.FullDao
import Verif.Model.TokenSwap
import Mathlib.Data.Fintype.Basic
/-!
# DAOs and a token swap

Any number of DAOs of `Model/FullDao`, and a swap of cw-token-swap to which one or two of them may be parties. The balances of
everybody, the DAOs among them, are those of `Model/TokenSwap`. What a DAO does with its coins and tokens comes out of its list
of messages to send.
-/

namespace Verif.SwapDaos
open Verif.WholeDao (VotingModule)
open Verif.WholeCondorcet (Now)
open Verif.FullDao (Env)

/-- The DAOs, by name, and the swap with the balances of all. -/
structure World {I : Type} (T : I → Type) where
  dao : ∀ i, FullDao.World (T i)
  swap : TokenSwap.World

/-- Calls: something happens in a DAO; somebody else calls the swap or pays somebody; the next message of a DAO, which calls the
swap or pays somebody, is carried out. -/
inductive Call {I : Type} (F D : I → Type) where
  | dao (i : I) (c : FullDao.Call (F i) (D i))
  | it (k : TokenSwap.Call)
  | pass (i : I)

/-- What came of a call: in a DAO, and of the swap. -/
structure Out where
  dao : FullDao.Out
  swap : List TokenSwap.Pay

/-- What a message of a DAO does with coins and tokens, if it does something with them. -/
abbrev Reading := Nat → Option TokenSwap.Call

/-- The next message of a DAO, if it does something with coins and tokens. -/
def next (r : Reading) : List DaoCore.Sub → Option TokenSwap.Call
  | .send (.other n) :: _ => r n
  | _ => none

/-- Something that happens in a DAO alone: a message about coins and tokens is not carried out this way. -/
def alone {F D : Type} (r : Reading) (stack : List DaoCore.Sub) : FullDao.Call F D → Bool
  | .core (.deliver _) => (next r stack).isNone
  | _ => true

variable {I : Type} [DecidableEq I] [Fintype I] {T F D P : I → Type}

/-- A step. The messages of a DAO are sent by its core contract, `execute_proposal_hook`,
contracts/dao-dao-core/src/contract.rs:215-232, with the address of the DAO; nobody else acts with that address. -/
def step (U : ∀ i, VotingModule (T i) (F i) (D i) (P i)) (N : ∀ i, Now (T i)) (decode : I → Nat → DaoCore.CosmosMsg)
    (r : I → Reading) (w : World T) (e : Env) (c : Call F D) : Res (World T × Out) :=
  match c with
  | .dao i c => do
    require (alone (r i) (w.dao i).core.stack c) .invalid
    let (q, o) ← FullDao.step (U i) (N i) (decode i) (w.dao i) e c
    .ok ({ w with dao := Function.update w.dao i q }, ⟨o, []⟩)
  | .it k => do
    require (decide (∀ i, k.sender ≠ (w.dao i).core.core.me)) .unauthorized
    let (x, o) ← TokenSwap.step w.swap e.block k
    .ok ({ w with swap := x }, ⟨⟨.none, []⟩, o⟩)
  | .pass i => do
    let k ← orErr (next (r i) (w.dao i).core.stack) .invalid
    require (decide (k.sender = (w.dao i).core.core.me)) .unauthorized
    let (q, o) ← FullDao.step (U i) (N i) (decode i) (w.dao i) e (.core (.deliver ⟨0, []⟩))
    let (x, p) ← TokenSwap.step w.swap e.block k
    .ok (⟨Function.update w.dao i q, x⟩, ⟨o, p⟩)

/-- The system. It begins with a new swap, and with DAOs in any states they can be in by then, each with an address of
its own. -/
def sys (U : ∀ i, VotingModule (T i) (F i) (D i) (P i)) (N : ∀ i, Now (T i)) (decode : I → Nat → DaoCore.CosmosMsg)
    (r : I → Reading) : Sys (World T) Env (Call F D) Out where
  init b w := TokenSwap.sys.init b w.swap ∧ (∀ i j, i ≠ j → (w.dao i).core.core.me ≠ (w.dao j).core.core.me) ∧
    ∀ i, ∃ b1 l, (FullDao.sys (U i) (N i) (decode i)).Reach (w.dao i) b1 l ∧ b1.le b
  block := Env.block
  step := step U N decode r

/-- An event of a history. -/
abbrev Event {I : Type} (T F D : I → Type) := Ev (World T) Env (Call F D) Out

end Verif.SwapDaos
