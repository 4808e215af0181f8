import Verif.Model.OwnedDao
import Verif.Model.FullDao
import Mathlib.Logic.Function.Basic
/-!
# A DAO with all its proposal modules, and all the contracts that may belong to it

The DAO of `Model/FullDao`: a core contract, a voting module and any number of proposal modules of dao-proposal-single,
dao-proposal-multiple and dao-proposal-condorcet, created as time goes by; and any number of further contracts, each of one of
the eight kinds of `Model/OwnedDao`. What the DAO says to one of these contracts comes out of its list of messages to send.
-/

namespace Verif.Holdings
open Verif.WholeDao (VotingModule)
open Verif.WholeCondorcet (Now)
open Verif.OwnedDao (Contract)
open Verif.FullDao (Env)

/-- The kinds of contracts that use `cw_ownable`. -/
inductive Kind where
  | vesting
  | issuer
  | rewards
  | stake
  | distributor
  | external
  | payroll
  | roles
  deriving DecidableEq, Repr

/-- The states of a contract. -/
def Kind.State : Kind → Type
  | .vesting => Vesting.World
  | .issuer => Issuer.World
  | .rewards => DaoRewards.World
  | .stake => Cw20Stake.World
  | .distributor => RewardDistributor.World
  | .external => ExternalRewards.World
  | .payroll => PayrollFactory.World
  | .roles => Roles.State

/-- What a call of a contract sees. -/
def Kind.View : Kind → Type
  | .vesting => Vesting.Env
  | .issuer => Issuer.Env
  | .rewards => Block
  | .stake => Block
  | .distributor => RewardDistributor.Env
  | .external => Block
  | .payroll => PayrollFactory.Env
  | .roles => Roles.Env

/-- The calls of a contract. -/
def Kind.Call : Kind → Type
  | .vesting => Vesting.Call
  | .issuer => Issuer.Call
  | .rewards => DaoRewards.Call
  | .stake => Cw20Stake.Call
  | .distributor => RewardDistributor.Call
  | .external => ExternalRewards.Call
  | .payroll => PayrollFactory.Call
  | .roles => Roles.Msg

/-- What comes of a call. -/
def Kind.Result : Kind → Type
  | .vesting => List Vesting.Pay
  | .issuer => Unit
  | .rewards => List Verif.Pay
  | .stake => Cw20Stake.Out
  | .distributor => Option RewardDistributor.Pay
  | .external => ExternalRewards.Pay
  | .payroll => Option Addr
  | .roles => Roles.Out

/-- The contract, see `Model/OwnedDao`. -/
def Kind.contract : (k : Kind) → Contract k.State k.View k.Call k.Result
  | .vesting => OwnedDao.vesting
  | .issuer => OwnedDao.issuer
  | .rewards => OwnedDao.rewards
  | .stake => OwnedDao.stake
  | .distributor => OwnedDao.distributor
  | .external => OwnedDao.external
  | .payroll => OwnedDao.payroll
  | .roles => OwnedDao.roles

/-- The DAO, and the contracts by name. There may be any number of names. -/
structure World (T : Type) {I : Type} (kind : I → Kind) where
  dao : FullDao.World T
  its : ∀ i, (kind i).State

/-- How the messages of the DAO are read: for which contract a message is, and which call of a contract it is. -/
structure Mail {I : Type} (kind : I → Kind) where
  dest : Nat → Option I
  read : (i : I) → Nat → Option (kind i).Call

/-- Calls: something happens in the DAO, or to one of the contracts, or the next message of the DAO, which is for one of the
contracts, is carried out. -/
inductive Call (F D : Type) {I : Type} (kind : I → Kind) where
  | dao (c : FullDao.Call F D)
  | it (i : I) (g : (kind i).View) (k : (kind i).Call)
  | pass (i : I) (g : (kind i).View)

/-- What came of a call: in the DAO, and in each of the contracts, if it was called. -/
structure Out {I : Type} (kind : I → Kind) where
  dao : FullDao.Out
  its : ∀ i, Option (kind i).Result

/-- Nothing came of it. -/
def silent : FullDao.Out := ⟨.none, []⟩

variable {T F D P I : Type} [DecidableEq I] {kind : I → Kind}

/-- The contract which the next message of the DAO is for. -/
def nextDest (m : Mail kind) : List DaoCore.Sub → Option I
  | .send (.other n) :: _ => m.dest n
  | _ => none

/-- The next message of the DAO, if it is a call of this contract. -/
def nextFor (m : Mail kind) (i : I) : List DaoCore.Sub → Option (kind i).Call
  | .send (.other n) :: _ => if m.dest n = some i then m.read i n else none
  | _ => none

/-- Something that happens in the DAO alone: a message to one of the contracts is not carried out this way. -/
def daoAlone (m : Mail kind) (stack : List DaoCore.Sub) : FullDao.Call F D → Bool
  | .core (.deliver _) => (nextDest m stack).isNone
  | _ => true

/-- A step. The messages of a DAO are sent by its core contract, `execute_proposal_hook`,
contracts/dao-dao-core/src/contract.rs:215-232, which has no other way to call a contract; so the DAO is the caller of a
contract only by a message of its list. That the coins sent along are in the treasury is left out. -/
def step (U : VotingModule T F D P) (N : Now T) (decode : Nat → DaoCore.CosmosMsg) (m : Mail kind) (w : World T kind) (e : Env) :
    Call F D kind → Res (World T kind × Out kind)
  | .dao c => do
    require (daoAlone m w.dao.core.stack c) .invalid
    let (q, o) ← FullDao.step U N decode w.dao e c
    .ok ({ w with dao := q }, ⟨o, fun _ => none⟩)
  | .it i g k => do
    require (decide ((kind i).contract.sys.block g = e.block) &&
      decide ((kind i).contract.caller g k ≠ some w.dao.core.core.me)) .invalid
    let (x, r) ← (kind i).contract.sys.step (w.its i) g k
    .ok ({ w with its := Function.update w.its i x }, ⟨silent, Function.update (fun _ => none) i (some r)⟩)
  | .pass i g => do
    let k ← orErr (nextFor m i w.dao.core.stack) .invalid
    require (decide ((kind i).contract.sys.block g = e.block) &&
      decide ((kind i).contract.caller g k = some w.dao.core.core.me)) .invalid
    let (q, o) ← FullDao.step U N decode w.dao e (.core (.deliver ⟨0, []⟩))
    let (x, r) ← (kind i).contract.sys.step (w.its i) g k
    .ok (⟨q, Function.update w.its i x⟩, ⟨o, Function.update (fun _ => none) i (some r)⟩)

/-- The beginning: all of them exist, in any states they can be in by then. -/
def Init (U : VotingModule T F D P) (N : Now T) (decode : Nat → DaoCore.CosmosMsg) (b : Block) (w : World T kind) : Prop :=
  (∃ b1 l, (FullDao.sys U N decode).Reach w.dao b1 l ∧ b1.le b) ∧
  ∀ i, ∃ b1 l, (kind i).contract.sys.Reach (w.its i) b1 l ∧ b1.le b

/-- The system. -/
def sys (U : VotingModule T F D P) (N : Now T) (decode : Nat → DaoCore.CosmosMsg) (m : Mail kind) :
    Sys (World T kind) Env (Call F D kind) (Out kind) where
  init := Init U N decode
  block := Env.block
  step := step U N decode m

/-- An event of a history. -/
abbrev Event (T F D : Type) {I : Type} (kind : I → Kind) := Ev (World T kind) Env (Call F D kind) (Out kind)

end Verif.Holdings
