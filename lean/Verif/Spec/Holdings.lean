import Verif.Model.Holdings
import Verif.Spec.FullDao
import Verif.Spec.OwnedDao
/-!
# Specification vocabulary for a DAO with all its modules and contracts
-/

namespace Verif.Spec.Holdings
open Verif Verif.Holdings
open Verif.WholeDao (VotingModule)
open Verif.WholeCondorcet (Now)
open Verif.Spec.FullDao (Authorised)
open Verif.Spec.Owners (Said)

variable {T F D P I : Type} [DecidableEq I] {kind : I → Kind}

/-- What an event is for the DAO. -/
def daoEvent (e : Event T F D kind) : Option (FullDao.Event T F D) :=
  match e.call with
  | .dao c => some ⟨e.pre.dao, e.env, c, e.out.dao, e.post.dao⟩
  | .it _ _ _ => none
  | .pass _ _ => some ⟨e.pre.dao, e.env, .core (.deliver ⟨0, []⟩), e.out.dao, e.post.dao⟩

/-- The history of the DAO. -/
def daoLog (log : List (Event T F D kind)) : List (FullDao.Event T F D) := log.filterMap daoEvent

/-- The call of contract `i` in an event, and what it sees. -/
def called (m : Mail kind) (i : I) (e : Event T F D kind) : Option ((kind i).View × (kind i).Call) :=
  match e.call with
  | .dao _ => none
  | .it j g k => if h : j = i then some (h ▸ (g, k)) else none
  | .pass j g => if h : j = i then (nextFor m i e.pre.dao.core.stack).map (fun k => (h ▸ g, k)) else none

/-- What an event is for contract `i`. -/
def itEvent (m : Mail kind) (i : I) (e : Event T F D kind) :
    Option (Ev (kind i).State (kind i).View (kind i).Call (kind i).Result) :=
  match called m i e, e.out.its i with
  | some (g, k), some r => some ⟨e.pre.its i, g, k, r, e.post.its i⟩
  | _, _ => none

/-- The history of contract `i`. -/
def itLog (m : Mail kind) (i : I) (log : List (Event T F D kind)) :
    List (Ev (kind i).State (kind i).View (kind i).Call (kind i).Result) :=
  log.filterMap (itEvent m i)

/-- The call of contract `i` goes back to a decision of the members of the DAO, whose history is `log`, or to what the DAO had to
send when it was founded, `first`. -/
def Ordered (U : VotingModule T F D P) (decode : Nat → DaoCore.CosmosMsg) (m : Mail kind) (first : List DaoCore.Sub)
    (log : List (FullDao.Event T F D)) (i : I) (k : (kind i).Call) : Prop :=
  ∃ n, m.dest n = some i ∧ m.read i n = some k ∧ Authorised U decode first log (.send (.other n))

/-- The owner of a contract and the one nominated. -/
def own : (k : Kind) → k.State → Ownership
  | .vesting, s => Vesting.World.c s |>.owner
  | .issuer, s => Issuer.World.st s |>.owner
  | .rewards, s => DaoRewards.World.c s |>.ownership
  | .stake, s => Cw20Stake.World.c s |>.ownership
  | .distributor, s => RewardDistributor.World.c s |>.ownership
  | .external, s => ExternalRewards.World.c s |>.ownership
  | .payroll, s => PayrollFactory.World.c s |>.owner
  | .roles, s => Roles.State.ownership s

/-- What is for the owner alone, see `Spec/OwnedDao`; in a roles contract that is everything. -/
def ownersOnly : (k : Kind) → k.Call → Bool
  | .vesting, c => OwnedDao.vestingOwners c
  | .issuer, c => OwnedDao.issuerOwners c
  | .rewards, c => OwnedDao.rewardsOwners c
  | .stake, c => OwnedDao.stakeOwners c
  | .distributor, c => OwnedDao.distributorOwners c
  | .external, c => OwnedDao.externalOwners c
  | .payroll, c => OwnedDao.payrollOwners c
  | .roles, _ => true

/-- The call nominates another owner or renounces the ownership. -/
def givesAway : (k : Kind) → k.Call → Bool
  | .vesting, c =>
    match (c : Vesting.Call) with
    | .msg (.updateOwnership x) => x != .accept
    | _ => false
  | .issuer, c =>
    match (c : Issuer.Call) with
    | .exec (.updateOwnership x) => x != .accept
    | _ => false
  | .rewards, c =>
    match (c : DaoRewards.Call) with
    | .exec _ _ (.updateOwnership x) => x != .accept
    | _ => false
  | .stake, c =>
    match (c : Cw20Stake.Call) with
    | .exec _ (.updateOwnership x) => x != .accept
    | _ => false
  | .distributor, c =>
    match (c : RewardDistributor.Call) with
    | .exec _ (.updateOwnership x) => x != .accept
    | _ => false
  | .external, c =>
    match (c : ExternalRewards.Call) with
    | .exec _ (.updateOwnership x) => x != .accept
    | _ => false
  | .payroll, c =>
    match (c : PayrollFactory.Call) with
    | .msg (.updateOwnership x) => x != .accept
    | _ => false
  | .roles, c =>
    match (c : Roles.Msg) with
    | .updateOwnership x => x != .accept
    | _ => false

/-- The members of the DAO decided to nominate another owner of contract `i` or to renounce the ownership, and the DAO did so;
`log` is the history of the DAO and `l` that of the contract. -/
def GivenAway (U : VotingModule T F D P) (decode : Nat → DaoCore.CosmosMsg) (m : Mail kind) (first : List DaoCore.Sub)
    (log : List (FullDao.Event T F D)) (i : I) (l : List (Ev (kind i).State (kind i).View (kind i).Call (kind i).Result)) :
    Prop :=
  ∃ ev ∈ l, givesAway (kind i) ev.call = true ∧ Ordered U decode m first log i ev.call

/-- A history in question. It starts in `w0`; the DAO began in `u` and its history until then is `d`; the contracts have each
had a history of their own. The DAO keeps its voting module and has no outside admin, and its modules are those it created,
see `Steady` and `Governed`; totals asked for without a height are those of the height, see `TotalsOfHeight`. -/
structure History (U : VotingModule T F D P) (N : Now T) (decode : Nat → DaoCore.CosmosMsg) (m : Mail kind)
    (u : FullDao.World T) (w0 w : World T kind) (b0 b : Block) (d : List (FullDao.Event T F D))
    (log : List (Event T F D kind)) : Prop where
  dao : ∃ bu b1, FullDao.Init U bu u ∧ (FullDao.sys U N decode).Run u bu d w0.dao b1 ∧ b1.le b0
  contracts : ∀ i, ∃ b1 l, (kind i).contract.sys.Reach (w0.its i) b1 l ∧ b1.le b0
  run : (sys U N decode m).Run w0 b0 log w b
  steady : FullDao.Steady (daoLog log ++ d)
  governed : FullDao.Governed (daoLog log ++ d)
  totals : FullDao.TotalsOfHeight U N (daoLog log ++ d)

end Verif.Spec.Holdings
