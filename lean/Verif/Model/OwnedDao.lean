import Verif.Model.WholeDao
import Verif.Model.Vesting
import Verif.Model.Issuer
import Verif.Model.DaoRewards
import Verif.Model.Cw20Stake
import Verif.Model.RewardDistributor
import Verif.Model.ExternalRewards
import Verif.Model.PayrollFactory
import Verif.Model.Roles
/-!
# A DAO and a contract that belongs to it

A DAO with its core contract, a single choice proposal module and a voting module, and one further contract, which the DAO may
own. What the DAO says to that contract comes out of its list of messages to send. The contract is any of those that use
`cw_ownable`: vesting, token issuer, rewards distributor, staking, reward distributor for staking, external rewards, payroll
factory, roles.
-/

namespace Verif.OwnedDao
open Verif.WholeDao (VotingModule Env)

/-- A contract, and whose message each of its calls is; `none` for what the chain does by itself and for what other contracts
report. -/
structure Contract (A G K R : Type) where
  sys : Sys A G K R
  caller : G → K → Option Addr

/-- The DAO and the contract. -/
structure World (T A : Type) where
  dao : WholeDao.World T
  it : A

/-- Calls: something happens in the DAO, or to the contract, or the next message of the DAO, which is for the contract, is
carried out. -/
inductive Call (F D G K : Type) where
  | dao (c : WholeDao.Call F D)
  | it (g : G) (k : K)
  | pass (g : G)

/-- What came of a call. -/
structure Out (R : Type) where
  dao : WholeDao.Out
  it : Option R

/-- Nothing came of it. -/
def silent : WholeDao.Out := ⟨none, []⟩

/-- The next message of the DAO, if it is one for the contract; `toCall n` is the call of the contract if `other n` is one. -/
def next {K : Type} (toCall : Nat → Option K) : List DaoCore.Sub → Option K
  | .send (.other n) :: _ => toCall n
  | _ => none

/-- Something that happens in the DAO alone: a message to the contract is not carried out this way. -/
def daoAlone {F D K : Type} (toCall : Nat → Option K) (stack : List DaoCore.Sub) : WholeDao.Call F D → Bool
  | .core (.deliver _) => (next toCall stack).isNone
  | _ => true

variable {T A F D P G K R : Type}

/-- A step. The messages of a DAO are sent by its core contract, `execute_proposal_hook`,
contracts/dao-dao-core/src/contract.rs:215-232, which has no other way to call a contract; so the DAO is the caller of the
contract only by a message of its list. That the coins sent along are in the treasury is left out. -/
def step (U : VotingModule T F D P) (decode : Nat → DaoCore.CosmosMsg) (X : Contract A G K R) (toCall : Nat → Option K)
    (w : World T A) (e : Env) : Call F D G K → Res (World T A × Out R)
  | .dao c => do
    require (daoAlone toCall w.dao.core.stack c) .invalid
    let (q, o) ← WholeDao.step U decode w.dao e c
    .ok ({ w with dao := q }, ⟨o, none⟩)
  | .it g k => do
    require (decide (X.sys.block g = e.block) && decide (X.caller g k ≠ some w.dao.core.core.me)) .invalid
    let (x, r) ← X.sys.step w.it g k
    .ok ({ w with it := x }, ⟨silent, some r⟩)
  | .pass g => do
    let k ← orErr (next toCall w.dao.core.stack) .invalid
    require (decide (X.sys.block g = e.block) && decide (X.caller g k = some w.dao.core.core.me)) .invalid
    let (q, o) ← WholeDao.step U decode w.dao e (.core (.deliver ⟨0, []⟩))
    let (x, r) ← X.sys.step w.it g k
    .ok (⟨q, x⟩, ⟨o, some r⟩)

/-- The beginning: both exist, in any states they can be in by then. -/
def Init (U : VotingModule T F D P) (decode : Nat → DaoCore.CosmosMsg) (X : Contract A G K R) (b : Block)
    (w : World T A) : Prop :=
  (∃ b1 l, (WholeDao.sys U decode).Reach w.dao b1 l ∧ b1.le b) ∧ ∃ b1 l, X.sys.Reach w.it b1 l ∧ b1.le b

/-- The system. -/
def sys (U : VotingModule T F D P) (decode : Nat → DaoCore.CosmosMsg) (X : Contract A G K R) (toCall : Nat → Option K) :
    Sys (World T A) Env (Call F D G K) (Out R) where
  init := Init U decode X
  block := Env.block
  step := step U decode X toCall

/-- An event of a history. -/
abbrev Event (T A F D G K R : Type) := Ev (World T A) Env (Call F D G K) (Out R)

/-! ## The contracts -/

/-- cw-vesting. Donations and slashing are not the doing of a caller. -/
def vesting : Contract Vesting.World Vesting.Env Vesting.Call (List Vesting.Pay) where
  sys := Vesting.sys
  caller g
    | .msg _ => some g.sender
    | _ => none

/-- cw-tokenfactory-issuer, with the messages to the chain about tokens. -/
def issuer : Contract Issuer.World Issuer.Env Issuer.Call Unit where
  sys := Issuer.sys
  caller g _ := some g.sender

/-- dao-rewards-distributor. -/
def rewards : Contract DaoRewards.World Block DaoRewards.Call (List Verif.Pay) where
  sys := DaoRewards.sys
  caller _
    | .exec a _ _ => some a
    | .send _ a _ _ => some a
    | .transfer _ a _ _ => some a
    | .change _ _ _ => none

/-- cw20-stake, with its token. -/
def stake : Contract Cw20Stake.World Block Cw20Stake.Call Cw20Stake.Out where
  sys := Cw20Stake.sys
  caller _
    | .exec a _ => some a
    | .send a _ _ => some a
    | .transfer a _ _ => some a
    | .burn a _ => some a
    | .mint _ _ => none

/-- cw20-stake-reward-distributor, with the tokens. -/
def distributor : Contract RewardDistributor.World RewardDistributor.Env RewardDistributor.Call
    (Option RewardDistributor.Pay) where
  sys := RewardDistributor.sys
  caller _
    | .exec a _ => some a
    | .transfer _ a _ _ => some a
    | .mint _ _ _ => none

/-- cw20-stake-external-rewards, with the reward token. -/
def external : Contract ExternalRewards.World Block ExternalRewards.Call ExternalRewards.Pay where
  sys := ExternalRewards.sys
  caller _
    | .exec a _ => some a
    | .fund a _ => some a
    | .transfer a _ _ => some a
    | .burn a _ => some a
    | .mint _ _ => none
    | .setStake _ _ _ => none

/-- cw-payroll-factory, with the tokens. -/
def payroll : Contract PayrollFactory.World PayrollFactory.Env PayrollFactory.Call (Option Addr) where
  sys := PayrollFactory.sys
  caller g _ := some g.sender

/-- cw721-roles. -/
def roles : Contract Roles.State Roles.Env Roles.Msg Roles.Out where
  sys := Roles.sys
  caller g _ := some g.sender

end Verif.OwnedDao
