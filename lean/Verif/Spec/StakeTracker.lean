import Verif.Model.StakeTracker
/-!
# What a stake tracker is supposed to report

Everything is computed from the list of registered events (newest first), independently of how the tracker
stores it.
-/

namespace Verif.Spec.StakeTracker

open Verif.StakeTracker

abbrev Log := List (Ev State Block Call Unit)

/-- What one event changes for validator `v` as seen at time `x`: a delegation and a redelegation count from the
moment they happen, an undelegation from the end of its unbonding period, a slash of bonded tokens from the
moment of the slash. -/
def effect (v x : Nat) (b : Block) : Call → Int
  | .delegate w a => if w = v ∧ secs b ≤ x then (a : Int) else 0
  | .redelegate src dst a =>
    (if dst = v ∧ secs b ≤ x then (a : Int) else 0) - (if src = v ∧ secs b ≤ x then (a : Int) else 0)
  | .undelegate w a d => if w = v ∧ secs b + d ≤ x then - (a : Int) else 0
  | .bondedSlash t w a => if w = v ∧ t ≤ x then - (a : Int) else 0
  | .unbondingSlash _ _ _ => 0

/-- The tokens staked or unbonding with `v` at time `x`. -/
def amount (v x : Nat) : Log → Int
  | [] => 0
  | e :: log => effect v x e.env e.call + amount v x log

/-- The validators an event names. -/
def names : Call → List Nat
  | .delegate v _ => [v]
  | .redelegate src dst _ => [src, dst]
  | .undelegate v _ _ => [v]
  | .bondedSlash _ v _ => [v]
  | .unbondingSlash _ v _ => [v]

/-- `vs` lists, without repetition, all validators named in the log. -/
def Covers (vs : List Nat) (log : Log) : Prop := vs.Nodup ∧ ∀ e ∈ log, ∀ v ∈ names e.call, v ∈ vs

/-- The number of validators with tokens, given the tokens of each. -/
def count (vs : List Nat) (f : Nat → Nat) : Nat := (vs.filter (fun v => decide (f v ≠ 0))).length

/-- Not a registration of a slash of unbonding tokens. -/
def NoUnbondingSlash (log : Log) : Prop := ∀ e ∈ log, ∀ t v a, e.call ≠ .unbondingSlash t v a

/-- `v` holds tokens now but is scheduled to hold none at some later time. -/
def Leaving (s : State) (t v : Nat) : Prop := validatorStaked s t v ≠ 0 ∧ ∃ x, t ≤ x ∧ validatorStaked s x v = 0

/-- Some tokens of `v` are still scheduled to leave after `t`. -/
def Pending (s : State) (t v : Nat) : Prop := ∃ x, t ≤ x ∧ validatorStaked s x v ≠ validatorStaked s t v

/-- The uses for which the count of validators is right: no delegation to a validator all of whose tokens are
about to leave; unbonding periods that do not end before an earlier one of the same validator; no redelegation
of nothing, away from a validator with tokens that are unbonding, or to a validator that is about to be left. -/
def Regular (e : Ev State Block Call Unit) : Prop :=
  match e.call with
  | .delegate v a => a = 0 ∨ ¬ Leaving e.pre (secs e.env) v
  | .undelegate v a d => a = 0 ∨ ¬ Pending e.pre (secs e.env + d) v
  | .redelegate src dst a =>
    a ≠ 0 ∧ ¬ Pending e.pre (secs e.env) src ∧ (src = dst ∨ ¬ Leaving e.pre (secs e.env) dst)
  | .bondedSlash _ _ a => a ≠ 0
  | .unbondingSlash _ _ _ => False

end Verif.Spec.StakeTracker
