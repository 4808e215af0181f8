import Verif.Model.DaoNet
import Verif.Spec.SubDao
import Mathlib.Logic.Relation
/-!
# Specification: who governs the DAOs of a network
-/

namespace Verif.Spec.DaoNet
open Verif Verif.DaoNet
open Verif.WholeDao (VotingModule)
open Verif.WholeCondorcet (Now)
open Verif.Spec.FullDao (Chosen coreEvent Steady TotalsOfHeight)
open Verif.Spec.SubDao (OwnModules)

variable {I : Type} [DecidableEq I] {T F D P : I → Type}

/-- What one DAO says to another in an event: who, to whom and what. -/
def told (r : Reading I) (e : Event T F D) : Option (I × I × DaoCore.Msg) :=
  match e.call with
  | .dao _ _ => none
  | .pass j => (next r j (e.pre.dao j).core.stack).map (fun x => (j, x.1, x.2))

/-- What an event is for DAO `i`. -/
def daoEvent (r : Reading I) (i : I) (e : Event T F D) : Option (FullDao.Event (T i) (F i) (D i)) :=
  match e.call with
  | .dao j c => if h : j = i then some ⟨e.pre.dao i, e.env, h ▸ c, e.out.dao, e.post.dao i⟩ else none
  | .pass j =>
    if j = i then some ⟨e.pre.dao i, e.env, .core (.deliver ⟨0, []⟩), e.out.dao, e.post.dao i⟩
    else match next r j (e.pre.dao j).core.stack with
      | some (k, m) =>
        if k = i then some ⟨e.pre.dao i, e.env, .core (.call (e.pre.dao j).core.core.me m), e.out.told, e.post.dao i⟩ else none
      | none => none

/-- The history of DAO `i`. -/
def daoLog (r : Reading I) (i : I) (log : List (Event T F D)) : List (FullDao.Event (T i) (F i) (D i)) :=
  log.filterMap (daoEvent r i)

/-- What the DAOs of a network send on good authority. It goes back to their foundings (`first`); to decisions of their own
members; to an order of another DAO, which at that time is the admin, and which gives the order on good authority; to an account
outside the network which at that time is the admin; and to what the DAO says to itself, or a contract it creates asks for, on
such authority. -/
inductive Authorised (U : ∀ i, VotingModule (T i) (F i) (D i) (P i)) (decode : I → Nat → DaoCore.CosmosMsg) (r : Reading I)
    (first : I → List DaoCore.Sub) (log : List (Event T F D)) : I → DaoCore.Sub → Prop where
  | founding {i : I} {d : DaoCore.Sub} (h : d ∈ first i) : Authorised U decode r first log i d
  | proposal {i : I} {later before : List (FullDao.Event (T i) (F i) (D i))} {e : FullDao.Event (T i) (F i) (D i)} {a : Addr}
      {id : Nat} {msgs : List Nat} {n : Nat} (hl : daoLog r i log = later ++ e :: before) (h : Chosen (U i) before e a id msgs)
      (ha : DaoCore.Enabled e.pre.core.core a) (hn : n ∈ msgs) : Authorised U decode r first log i (.send (decode i n))
  | admin {i j : I} {e : Event T F D} {n : Nat} {msgs : List DaoCore.CosmosMsg} {m : DaoCore.CosmosMsg} (he : e ∈ log)
      (ht : told r e = some (j, i, .executeAdminMsgs msgs)) (ha : (e.pre.dao i).core.core.admin = (e.pre.dao j).core.core.me)
      (h : Authorised U decode r first log j (.send (.other n))) (hn : r j n = some (i, .executeAdminMsgs msgs)) (hm : m ∈ msgs) :
      Authorised U decode r first log i (.send m)
  | outside {i : I} {e : Event T F D} {a : Addr} {msgs : List DaoCore.CosmosMsg} {m : DaoCore.CosmosMsg} (he : e ∈ log)
      (hc : e.call = .dao i (.core (.call a (.executeAdminMsgs msgs)))) (ha : (e.pre.dao i).core.core.admin = a)
      (ho : ∀ j, (e.pre.dao j).core.core.me ≠ a) (hm : m ∈ msgs) : Authorised U decode r first log i (.send m)
  | nested {i : I} {msgs : List DaoCore.CosmosMsg} {m : DaoCore.CosmosMsg}
      (h : Authorised U decode r first log i (.send (.toSelf (.executeAdminMsgs msgs)))) (hm : m ∈ msgs) :
      Authorised U decode r first log i (.send m)
  | voting {i : I} {n : Nat} (h : Authorised U decode r first log i (.send (.toSelf (.updateVotingModule n)))) :
      Authorised U decode r first log i (.create .votingModuleUpdate n)
  | module {i : I} {add : List Nat} {dis : List Addr} {n : Nat}
      (h : Authorised U decode r first log i (.send (.toSelf (.updateProposalModules add dis)))) (hn : n ∈ add) :
      Authorised U decode r first log i (.create .proposalModule n)
  | callback {i : I} {e : FullDao.Event (T i) (F i) (D i)} {c : DaoCore.Event} {role : DaoCore.Role} {n : Nat}
      {x : DaoCore.Created} {m : DaoCore.CosmosMsg} (h : Authorised U decode r first log i (.create role n))
      (he : e ∈ daoLog r i log) (hc : coreEvent e = some c) (hr : DaoCore.created c = some (role, x)) (hm : m ∈ x.callbacks) :
      Authorised U decode r first log i (.send m)

/-- Every DAO of the network is as C95 assumes: it keeps its voting module, its proposal modules keep their DAO and are among
those it created, and totals asked for without a height are those of the height. -/
def Sound (U : ∀ i, VotingModule (T i) (F i) (D i) (P i)) (N : ∀ i, Now (T i)) (r : Reading I) (log : List (Event T F D)) :
    Prop :=
  ∀ i, Steady (daoLog r i log) ∧ TotalsOfHeight (U i) (N i) (daoLog r i log) ∧ OwnModules (daoLog r i log)

/-- DAO `j` is the admin of DAO `i`. -/
def Admin (w : World T) (j i : I) : Prop := j ≠ i ∧ (w.dao i).core.core.admin = (w.dao j).core.core.me

/-- A chain of command: message `n` of DAO `j` orders its SubDAO to order its own SubDAO, and so on, until the last one, DAO `i`,
is ordered to send `msgs`. `path` is the list of those that give orders, from `j` on. -/
inductive Command (r : Reading I) (w : World T) (i : I) (msgs : List DaoCore.CosmosMsg) : I → Nat → List I → Prop where
  | last {j : I} {n : Nat} (ha : Admin w j i) (hn : r j n = some (i, .executeAdminMsgs msgs)) : Command r w i msgs j n [j]
  | through {j k : I} {n n' : Nat} {path : List I} (ha : Admin w j k) (hn : r j n = some (k, .executeAdminMsgs [.other n']))
      (hc : Command r w i msgs k n' path) : Command r w i msgs j n (j :: path)

/-- DAO `k` is above DAO `i`: it is the same one, or it is above one that was the admin of `i` at some time. -/
inductive Above (log : List (Event T F D)) (k : I) : I → Prop where
  | same : Above log k k
  | over {j i : I} {e : Event T F D} (he : e ∈ log) (ha : Admin e.pre j i) (h : Above log k j) : Above log k i

/-- What begins in DAO `k`: what it had to send in the beginning, the messages of a proposal its members decided for in an enabled
module, and what an account outside the network orders that is its admin. -/
inductive Begins (U : ∀ i, VotingModule (T i) (F i) (D i) (P i)) (decode : I → Nat → DaoCore.CosmosMsg) (r : Reading I)
    (first : I → List DaoCore.Sub) (log : List (Event T F D)) (k : I) : DaoCore.Sub → Prop where
  | founding {d : DaoCore.Sub} (h : d ∈ first k) : Begins U decode r first log k d
  | members {later before : List (FullDao.Event (T k) (F k) (D k))} {e : FullDao.Event (T k) (F k) (D k)} {a : Addr}
      {id : Nat} {msgs : List Nat} {n : Nat} (hl : daoLog r k log = later ++ e :: before) (h : Chosen (U k) before e a id msgs)
      (ha : DaoCore.Enabled e.pre.core.core a) (hn : n ∈ msgs) : Begins U decode r first log k (.send (decode k n))
  | outside {e : Event T F D} {a : Addr} {msgs : List DaoCore.CosmosMsg} {m : DaoCore.CosmosMsg} (he : e ∈ log)
      (hc : e.call = .dao k (.core (.call a (.executeAdminMsgs msgs)))) (ha : (e.pre.dao k).core.core.admin = a)
      (ho : ∀ j, (e.pre.dao j).core.core.me ≠ a) (hm : m ∈ msgs) : Begins U decode r first log k (.send m)

/-- What a message leads to: what DAO `i` sends if DAO `j` has sent `d`. Either `d` is an order for `i`, whose admin is `j`; or it
is one of the DAO to itself, or the creation of a contract that asks for something. -/
inductive Leads (r : Reading I) (log : List (Event T F D)) : I × DaoCore.Sub → I × DaoCore.Sub → Prop where
  | order {i j : I} {e : Event T F D} {n : Nat} {msgs : List DaoCore.CosmosMsg} {m : DaoCore.CosmosMsg} (he : e ∈ log)
      (ht : told r e = some (j, i, .executeAdminMsgs msgs)) (ha : Admin e.pre j i) (hn : r j n = some (i, .executeAdminMsgs msgs))
      (hm : m ∈ msgs) : Leads r log (j, .send (.other n)) (i, .send m)
  | nested {i : I} {msgs : List DaoCore.CosmosMsg} {m : DaoCore.CosmosMsg} (hm : m ∈ msgs) :
      Leads r log (i, .send (.toSelf (.executeAdminMsgs msgs))) (i, .send m)
  | voting {i : I} {n : Nat} : Leads r log (i, .send (.toSelf (.updateVotingModule n))) (i, .create .votingModuleUpdate n)
  | module {i : I} {add : List Nat} {dis : List Addr} {n : Nat} (hn : n ∈ add) :
      Leads r log (i, .send (.toSelf (.updateProposalModules add dis))) (i, .create .proposalModule n)
  | callback {i : I} {e : FullDao.Event (T i) (F i) (D i)} {c : DaoCore.Event} {role : DaoCore.Role} {n : Nat}
      {x : DaoCore.Created} {m : DaoCore.CosmosMsg} (he : e ∈ daoLog r i log) (hc : coreEvent e = some c)
      (hr : DaoCore.created c = some (role, x)) (hm : m ∈ x.callbacks) : Leads r log (i, .create role n) (i, .send m)

/-- The core of DAO `i` is told `m` on good authority in an event: by itself, by another DAO, or by an account outside the network,
whose address is `a` in each case. -/
inductive Said (U : ∀ i, VotingModule (T i) (F i) (D i) (P i)) (decode : I → Nat → DaoCore.CosmosMsg) (r : Reading I)
    (first : I → List DaoCore.Sub) (log : List (Event T F D)) (i : I) (m : DaoCore.Msg) (e : Event T F D) (a : Addr) : Prop where
  | itself (ha : (e.pre.dao i).core.core.me = a) (h : Authorised U decode r first log i (.send (.toSelf m))) :
      Said U decode r first log i m e a
  | other {j : I} {n : Nat} (hj : j ≠ i) (ha : (e.pre.dao j).core.core.me = a) (ht : told r e = some (j, i, m))
      (h : Authorised U decode r first log j (.send (.other n))) (hn : r j n = some (i, m)) : Said U decode r first log i m e a
  | outside (hc : e.call = .dao i (.core (.call a m))) (ho : ∀ j, (e.pre.dao j).core.core.me ≠ a) :
      Said U decode r first log i m e a

end Verif.Spec.DaoNet
