import Verif.Base.Map
import Verif.Base.Core
/-!
# cw-wormhole

A map whose values may be changed at times in the future: for every key a list of (time, value) snapshots.
-/

namespace Verif.Wormhole

/-- `Wormhole::snapshots`, packages/cw-wormhole/src/lib.rs:130-132: the storage map from key and time to
value. -/
abbrev Worm (K V : Type) := AMap (K × Nat) V

variable {K V σ : Type} [DecidableEq K]

/-- The newest snapshot of `k` at or before `t`: the first entry of a descending range over the prefix `k`
up to and including `t`. -/
def latest (k : K) (t : Nat) : Worm K V → Option (Nat × V)
  | [] => none
  | ((q, s), v) :: rest =>
    if q = k ∧ s ≤ t then
      match latest k t rest with
      | some (s', v') => if s' ≤ s then some (s, v) else some (s', v')
      | none => some (s, v)
    else latest k t rest

/-- `Wormhole::load`, packages/cw-wormhole/src/lib.rs:101-110. -/
def load (m : Worm K V) (k : K) (t : Nat) : Option V := (latest k t m).map Prod.snd

/-- Insert into a list ordered by time. -/
def insertByTime (e : Nat × V) : List (Nat × V) → List (Nat × V)
  | [] => [e]
  | x :: rest => if e.1 ≤ x.1 then e :: x :: rest else x :: insertByTime e rest

/-- All snapshots of `k` after `t`, in ascending order of time: the range used by `Wormhole::update`,
packages/cw-wormhole/src/lib.rs:155-160. -/
def future (k : K) (t : Nat) : Worm K V → List (Nat × V)
  | [] => []
  | ((q, s), v) :: rest => if q = k ∧ t < s then insertByTime (s, v) (future k t rest) else future k t rest

/-- The loop of `Wormhole::update`, packages/cw-wormhole/src/lib.rs:155-164. The closure may fail (panic)
and carries a state, as an `FnMut` does. -/
def applyAll (k : K) (f : σ → V → Nat → Res (V × σ)) : List (Nat × V) → Worm K V → σ → Res (Worm K V × σ)
  | [], m, st => .ok (m, st)
  | (s, v) :: rest, m, st => do
    let r ← f st v s
    applyAll k f rest (AMap.set m (k, s) r.1) r.2

/-- `Wormhole::update`, packages/cw-wormhole/src/lib.rs:142-166. `dflt` is `V::default()`. Returns the
storage, the new value at `t`, and the state of the closure. -/
def update (dflt : V) (m : Worm K V) (k : K) (t : Nat) (f : σ → V → Nat → Res (V × σ)) (st : σ) :
    Res (Worm K V × V × σ) := do
  let r ← f st ((load m k t).getD dflt) t
  let m1 := AMap.set m (k, t) r.1
  let r2 ← applyAll k f (future k t m1) m1 r.2
  .ok (r2.1, r.1, r2.2)

/-- `Wormhole::dangerously_update`, packages/cw-wormhole/src/lib.rs:211-222. -/
def dangerouslyUpdate (dflt : V) (m : Worm K V) (k : K) (t : Nat) (f : V → Nat → Res V) :
    Res (Worm K V × V) := do
  let u ← f ((load m k t).getD dflt) t
  .ok (AMap.set m (k, t) u, u)

/-- A closure without state. -/
def pureF (f : V → Nat → Res V) : Unit → V → Nat → Res (V × Unit) := fun _ v t => do
  let u ← f v t
  .ok (u, ())

/-- `Wormhole::increment`, packages/cw-wormhole/src/lib.rs:113-118, with the checked addition of the value
type. -/
def increment (add : Nat → Nat → Res Nat) (m : Worm K Nat) (k : K) (t i : Nat) : Res (Worm K Nat × Nat) := do
  let r ← update 0 m k t (pureF (fun v _ => add v i)) ()
  .ok (r.1, r.2.1)

/-- `Wormhole::decrement`, packages/cw-wormhole/src/lib.rs:121-126. -/
def decrement (m : Worm K Nat) (k : K) (t i : Nat) : Res (Worm K Nat × Nat) := do
  let r ← update 0 m k t (pureF (fun v _ => sub128 v i)) ()
  .ok (r.1, r.2.1)

end Verif.Wormhole
