import Verif.Model.Cw20Voting
/-!
# Specification vocabulary for dao-voting-cw20-staked

In terms of what can be observed: the answers of the staking contract and the token, and the log of calls.
-/

namespace Verif.Spec.Cw20Voting
open Verif Verif.Cw20Voting Verif.Active

/-- A threshold that makes sense for a supply: a percentage above 0 and up to 100, or a count of at least
one and at most the supply. -/
def Sensible (t : Option ActiveThreshold) (supply : Nat) : Prop :=
  match t with
  | none => True
  | some (.percentage p) => 0 < p ∧ p ≤ 10 ^ 18
  | some (.absolute n) => 0 < n ∧ n ≤ supply

/-- Nobody gave tokens to the pool without taking shares for them. -/
def NoFunding (log : List (Ev World Block Call Out)) : Prop :=
  ∀ e ∈ log, ∀ a n, e.call ≠ .stake (.send a n .fund)

/-- Nothing in the log is signed by `a`. -/
def Silent (a : Addr) (log : List (Ev World Block Call Out)) : Prop :=
  ∀ e ∈ log, ∀ m n r d, e.call ≠ .stake (.exec a m) ∧ e.call ≠ .stake (.send a n r) ∧
    e.call ≠ .stake (.transfer a d n) ∧ e.call ≠ .stake (.burn a n)

end Verif.Spec.Cw20Voting
