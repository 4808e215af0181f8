import Verif.Model.OwnedDao
import Verif.Spec.WholeDao
import Verif.Spec.Owners
/-!
# Specification vocabulary for a DAO and a contract that belongs to it
-/

namespace Verif.Spec.OwnedDao
open Verif Verif.OwnedDao
open Verif.WholeDao (VotingModule)
open Verif.Spec.WholeDao (Authorised)

variable {T A F D P G K R : Type}

/-- What an event is for the DAO. -/
def daoEvent (e : Event T A F D G K R) : Option (WholeDao.Event T F D) :=
  match e.call with
  | .dao c => some ⟨e.pre.dao, e.env, c, e.out.dao, e.post.dao⟩
  | .it _ _ => none
  | .pass _ => some ⟨e.pre.dao, e.env, .core (.deliver ⟨0, []⟩), e.out.dao, e.post.dao⟩

/-- The history of the DAO. -/
def daoLog (log : List (Event T A F D G K R)) : List (WholeDao.Event T F D) := log.filterMap daoEvent

/-- The call of the contract in an event, and how it sees the block. -/
def called (toCall : Nat → Option K) (e : Event T A F D G K R) : Option (G × K) :=
  match e.call with
  | .dao _ => none
  | .it g k => some (g, k)
  | .pass g => (next toCall e.pre.dao.core.stack).map (fun k => (g, k))

/-- What an event is for the contract. -/
def itEvent (toCall : Nat → Option K) (e : Event T A F D G K R) : Option (Ev A G K R) :=
  match called toCall e, e.out.it with
  | some (g, k), some r => some ⟨e.pre.it, g, k, r, e.post.it⟩
  | _, _ => none

/-- The history of the contract. -/
def itLog (toCall : Nat → Option K) (log : List (Event T A F D G K R)) : List (Ev A G K R) :=
  log.filterMap (itEvent toCall)

/-- The call goes back to a decision of the members of the DAO, whose history is `log`. -/
def Ordered (U : VotingModule T F D P) (decode : Nat → DaoCore.CosmosMsg) (toCall : Nat → Option K)
    (log : List (WholeDao.Event T F D)) (k : K) : Prop :=
  ∃ n, toCall n = some k ∧ Authorised U decode log (.send (.other n))

/-- What happened before the history in question starts: `l` is the history of the contract until then, and `d` that of the
DAO, which began with nothing to send. -/
def Past (U : VotingModule T F D P) (decode : Nat → DaoCore.CosmosMsg) (X : Contract A G K R)
    (w : World T A) (b : Block) (l : List (Ev A G K R)) (d : List (WholeDao.Event T F D)) : Prop :=
  (∃ b1, X.sys.Reach w.it b1 l ∧ b1.le b) ∧
  ∃ u b0 b1, WholeDao.Init U b0 u ∧ u.core.stack = [] ∧ (WholeDao.sys U decode).Run u b0 d w.dao b1 ∧ b1.le b

/-- The members of the DAO decided to nominate another owner of the contract or to renounce the ownership, and the DAO did so;
`tells` reads the calls of `UpdateOwnership` off the calls, `log` is the history of the DAO and `l` that of the contract. -/
def GivenAway (U : VotingModule T F D P) (decode : Nat → DaoCore.CosmosMsg) (toCall : Nat → Option K)
    (tells : G → K → Option Owners.Said) (log : List (WholeDao.Event T F D)) (l : List (Ev A G K R)) : Prop :=
  ∃ ev ∈ l, ∃ x, tells ev.env ev.call = some x ∧ x.action ≠ .accept ∧ Ordered U decode toCall log ev.call

/-- A history in question: what was before, what happens, and that the DAO keeps its modules and is governed by its members
alone, see `Steady` and `Sole`. -/
structure History (U : VotingModule T F D P) (decode : Nat → DaoCore.CosmosMsg) (X : Contract A G K R)
    (toCall : Nat → Option K) (w0 w : World T A) (b0 b : Block) (log : List (Event T A F D G K R)) (l : List (Ev A G K R))
    (d : List (WholeDao.Event T F D)) : Prop where
  past : Past U decode X w0 b0 l d
  run : (sys U decode X toCall).Run w0 b0 log w b
  steady : WholeDao.Steady (daoLog log ++ d)
  sole : WholeDao.Sole (daoLog log ++ d)

/-- Members `ys` of a DAO that is in state `x` in block `b` can act: their stakes suffice for the threshold if they propose and
vote as described by `e`, in a later block, and have the proposal executed as described by `f`, when the voting period is over.
Anybody may propose, there is no timelock, and the DAO is not paused. -/
structure Majority (U : VotingModule T F D P) (x : WholeDao.World T) (b : Block) (ys : List Addr) (e f : WholeDao.Env) :
    Prop where
  now : x.core.core.voting = some x.voteAddr ∧ x.prop.config.dao = x.core.core.me
  policy : x.prop.policy = .anyone
  veto : x.prop.config.veto = none
  count : x.prop.count + 1 < U64
  total : U.totalWeight x.vote < U128
  le : b.le e.block
  later : b.height < e.block.height
  active : e.active = true
  opens : (x.prop.config.maxVotingPeriod.after e.block).isExpired e.block = false
  nodup : ys.Nodup
  stake : ∀ a ∈ ys, U.weight x.vote a ≠ 0
  win : ShouldPass x.prop.config.threshold (U.totalWeight x.vote) ⟨(ys.map (U.weight x.vote)).sum, 0, 0⟩ true
  block : e.block.le f.block
  ends : (x.prop.config.maxVotingPeriod.after e.block).isExpired f.block = true
  member : x.prop.config.onlyMembersExecute = true → U.weight x.vote f.sender ≠ 0
  pause : DaoCore.isPaused x.core.core f.block = false
  enabled : DaoCore.Enabled x.core.core x.propAddr

/-- What they do, newest first: propose the message `n`, vote yes, execute, and have the message carried out with the view `g`
of the block. -/
def script (count : Nat) (ys : List Addr) (e f : WholeDao.Env) (n content : Nat) (g : G) : List (WholeDao.Env × Call F D G K) :=
  (f, .pass g) :: (f, .dao (.prop (.execute (count + 1) false))) ::
    (ys.reverse.map (fun a => ({ e with sender := a }, Call.dao (WholeDao.Call.prop (.vote (count + 1) .yes none)))) ++
    [(e, .dao (.prop (.propose none content [n] none true)))])

/-! ## What is for the owner alone -/

/-- Canceling a vest, and reporting that validators were slashed. -/
def vestingOwners : Vesting.Call → Bool
  | .msg .cancel => true
  | .msg (.registerSlash _ _ _ _) => true
  | _ => false

/-- Everything but minting and burning, for which allowances are needed, and messages to the chain. -/
def issuerOwners : Issuer.Call → Bool
  | .exec (.mint _ _) => false
  | .exec (.burn _ _) => false
  | .exec (.updateOwnership _) => false
  | .exec _ => true
  | .chain _ => false

/-- Creating and changing distributions, and taking back what is undistributed. -/
def rewardsOwners : DaoRewards.Call → Bool
  | .exec _ _ (.create _ _ _ _ _ _) => true
  | .exec _ _ (.update _ _ _ _ _ _) => true
  | .exec _ _ (.withdraw _) => true
  | _ => false

/-- The unstaking duration, and who is told about stakes. -/
def stakeOwners : Cw20Stake.Call → Bool
  | .exec _ (.updateConfig _) => true
  | .exec _ (.addHook _) => true
  | .exec _ (.removeHook _) => true
  | _ => false

/-- What is paid to whom, and taking the tokens back. -/
def distributorOwners : RewardDistributor.Call → Bool
  | .exec _ (.updateConfig _ _ _) => true
  | .exec _ .withdraw => true
  | _ => false

/-- Funding the rewards, and how long a funding lasts. -/
def externalOwners : ExternalRewards.Call → Bool
  | .exec _ (.updateRewardDuration _) => true
  | .fund _ _ => true
  | _ => false

/-- Which code is instantiated, and making payrolls in native tokens. -/
def payrollOwners : PayrollFactory.Call → Bool
  | .msg (.updateCodeId _) => true
  | .msg (.native _) => true
  | _ => false

end Verif.Spec.OwnedDao
