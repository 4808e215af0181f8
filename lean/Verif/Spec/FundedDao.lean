import Verif.Model.FundedDao
import Verif.Spec.FundDistributor
import Verif.Spec.WholeDao
/-!
# What a fund distributor is supposed to do for the members of a voting module
-/

namespace Verif.Spec.FundedDao
open Verif Verif.FundedDao
open Verif.WholeDao (VotingModule)

variable {S E C O : Type}

/-- What the transactions of the distributor in a history were. -/
def distLog (V : VotingModule S E C O) : List (Event S E C) → FundDistributor.Log
  | [] => []
  | e :: rest =>
    match e.call with
    | .dist c => ⟨e.pre.dist, distEnv V e.pre.vote e.env, c, e.out, e.post.dist⟩ :: distLog V rest
    | .vote _ _ => distLog V rest

/-- No redistribution names a height that has not come yet. -/
def NoneAhead (log : List (Event S E C)) : Prop :=
  ∀ e ∈ log, ∀ a h, e.call = .dist (.redistribute a h) → h ≤ e.env.height

/-- There was no redistribution. -/
def NoneAgain (log : List (Event S E C)) : Prop := ∀ e ∈ log, ∀ a h, e.call ≠ .dist (.redistribute a h)

/-- All that was paid into the pool, paid out, and paid to one member. -/
def funded (V : VotingModule S E C O) (t : Token) (log : List (Event S E C)) : Nat :=
  FundDistributor.funded t (distLog V log)
def paidOut (V : VotingModule S E C O) (t : Token) (log : List (Event S E C)) : Nat :=
  FundDistributor.paidOut t (distLog V log)
def received (V : VotingModule S E C O) (a : Addr) (t : Token) (log : List (Event S E C)) : Nat :=
  FundDistributor.received a t (distLog V log)

/-- The member `a` has successfully claimed `t`. -/
def Claimed (a : Addr) (t : Token) (log : List (Event S E C)) : Prop :=
  ∃ e ∈ log, ∃ c, e.call = .dist c ∧ FundDistributor.claimsFor a t c = true

end Verif.Spec.FundedDao
