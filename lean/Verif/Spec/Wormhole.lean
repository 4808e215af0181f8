import Verif.Base.Core
/-!
# What a map over time is supposed to mean

A sequence of updates (newest first), each naming a key, a time and a change. The value of a key at a time `x`
is obtained by applying, in the order they were made, all the changes of that key whose time is at or before
`x`. A change receives the time at which the value it changes came into force: the newest time at or before `x`
of any change of the key made so far.
-/

namespace Verif.Spec.Wormhole

/-- One update: from `time` on, `change` is applied to the value of `key`. -/
structure Upd (K V : Type) where
  key : K
  time : Nat
  change : V → Nat → Res V

variable {K V : Type} [DecidableEq K]

/-- The newest time at or before `x` of an update of `k`. -/
def lastTime (k : K) (x : Nat) : List (Upd K V) → Nat
  | [] => 0
  | u :: us => if u.key = k ∧ u.time ≤ x then max u.time (lastTime k x us) else lastTime k x us

/-- The value of `k` at time `x`; `none` before the first update. A change that fails makes it fail. -/
def value (dflt : V) (k : K) (x : Nat) : List (Upd K V) → Res (Option V)
  | [] => .ok none
  | u :: us => do
    let v ← value dflt k x us
    if u.key = k ∧ u.time ≤ x then do
      let w ← u.change (v.getD dflt) (lastTime k x (u :: us))
      .ok (some w)
    else .ok v

end Verif.Spec.Wormhole
