import Verif.Model.Federation
import Verif.Spec.SubDao
/-!
# Specification: how DAOs act as members of other DAOs
-/

namespace Verif.Spec.Federation
open Verif Verif.Federation
open Verif.WholeDao (VotingModule)
open Verif.WholeCondorcet (Now)
open Verif.Spec.FullDao (Steady TotalsOfHeight Governed)

variable {I : Type} [DecidableEq I] {T F D P : I → Type}

/-- What an event is for DAO `i`. -/
def daoEvent (r : Reading I) (i : I) (e : Event T F D) : Option (FullDao.Event (T i) (F i) (D i)) :=
  match e.call with
  | .dao j c => if h : j = i then some ⟨e.pre.dao i, e.env, h ▸ c, e.out.dao, e.post.dao i⟩ else none
  | .pass j =>
    if j = i then some ⟨e.pre.dao i, e.env, .core (.deliver ⟨0, []⟩), e.out.dao, e.post.dao i⟩
    else match next r j (e.pre.dao j).core.stack with
      | some (k, m) =>
        if k = i then some ⟨e.pre.dao i, { e.env with sender := (e.pre.dao j).core.core.me },
          m.call (e.pre.dao j).core.core.me, e.out.told, e.post.dao i⟩ else none
      | none => none

/-- The history of DAO `i`. -/
def daoLog (r : Reading I) (i : I) (log : List (Event T F D)) : List (FullDao.Event (T i) (F i) (D i)) :=
  log.filterMap (daoEvent r i)

/-- DAO `j` says `m` to DAO `i` on the authority of its members: a message that says so goes back to what `j` had to send in the
beginning, or to proposals the members of `j` have decided for. -/
def Resolved (U : ∀ i, VotingModule (T i) (F i) (D i) (P i)) (decode : I → Nat → DaoCore.CosmosMsg) (r : Reading I)
    (w0 : World T) (log : List (Event T F D)) (j i : I) (m : Order) : Prop :=
  ∃ n, r j n = some (i, m) ∧
    Spec.FullDao.Authorised (U j) (decode j) (w0.dao j).core.stack (daoLog r j log) (.send (.other n))

/-- DAO `j` is as C95 assumes: it has no outside admin and its enabled proposal modules are ones it created; it keeps its voting
module, and its proposal modules keep their DAO; totals asked for without a height are those of the height. -/
def Free (U : ∀ i, VotingModule (T i) (F i) (D i) (P i)) (N : ∀ i, Now (T i)) (r : Reading I) (log : List (Event T F D)) (j : I) :
    Prop :=
  Steady (daoLog r j log) ∧ TotalsOfHeight (U j) (N j) (daoLog r j log) ∧ Governed (daoLog r j log)

/-- What is said to one DAO, as seen there: who calls, and what. -/
def Heard {S E C : Type} (e : FullDao.Event S E C) (sender : Addr) : Order → Prop
  | .core m => e.call = .core (.call sender m)
  | .single a c => e.env.sender = sender ∧ e.call = .single a c
  | .multi a c => e.env.sender = sender ∧ e.call = .multi a c
  | .condorcet a c => e.env.sender = sender ∧ e.call = .condorcet a c

/-- A pre-propose module makes a proposal in the name of `x` and hands in a vote of `x` with it. -/
def Sponsored {S E C : Type} (e : FullDao.Event S E C) (x : Addr) : Prop :=
  (∃ a c m v z, e.call = .single a (.propose (some x) c m (some v) z)) ∨
  ∃ a c m v z, e.call = .multi a (.propose (some x) c m (some v) z)

end Verif.Spec.Federation
