import Verif.Model.Wormhole
import Verif.Base.History
/-!
# cw-stake-tracker

Keeps, for every time, the tokens staked or unbonding in total and with each validator, and the number of
validators. The tracker is a library: the calls below are the functions a contract that embeds it calls.
-/

namespace Verif.StakeTracker

open Verif.Wormhole

/-- `StakeTracker`, packages/cw-stake-tracker/src/lib.rs:8-26: three wormholes. Validators are numbered. -/
structure State where
  total : Worm Unit Nat
  validators : Worm Nat Nat
  cardinality : Worm Unit Nat
  deriving DecidableEq, Repr

/-- Nothing staked. -/
def empty : State := { total := [], validators := [], cardinality := [] }

/-- `StakeTracker::total_staked`, packages/cw-stake-tracker/src/lib.rs:232-236. `t` in seconds. -/
def totalStaked (s : State) (t : Nat) : Nat := (load s.total () t).getD 0

/-- `StakeTracker::validator_staked`, packages/cw-stake-tracker/src/lib.rs:240-249. -/
def validatorStaked (s : State) (t : Nat) (v : Nat) : Nat := (load s.validators v t).getD 0

/-- `StakeTracker::validator_cardinality`, packages/cw-stake-tracker/src/lib.rs:253-257. -/
def validatorCardinality (s : State) (t : Nat) : Nat := (load s.cardinality () t).getD 0

/-- `self.cardinality.increment(storage, (), t, 1)` when `c` holds, packages/cw-stake-tracker/src/lib.rs:65-67. -/
def cardIncIf (c : Bool) (s : State) (t : Nat) : Res State := do
  if c then
    let r ← increment add64 s.cardinality () t 1
    .ok { s with cardinality := r.1 }
  else .ok s

/-- `self.cardinality.decrement(storage, (), t, 1)` when `c` holds, packages/cw-stake-tracker/src/lib.rs:89-91. -/
def cardDecIf (c : Bool) (s : State) (t : Nat) : Res State := do
  if c then
    let r ← decrement s.cardinality () t 1
    .ok { s with cardinality := r.1 }
  else .ok s

/-- `StakeTracker::on_delegate`, packages/cw-stake-tracker/src/lib.rs:52-71. -/
def onDelegate (s : State) (t v amount : Nat) : Res State := do
  let r ← increment add128 s.total () t amount
  let s := { s with total := r.1 }
  let old := validatorStaked s t v
  let s ← cardIncIf (decide (old = 0) && decide (amount ≠ 0)) s t
  let r ← increment add128 s.validators v t amount
  .ok { s with validators := r.1 }

/-- `StakeTracker::on_redelegate`, packages/cw-stake-tracker/src/lib.rs:78-99. -/
def onRedelegate (s : State) (t src dst amount : Nat) : Res State := do
  let r ← decrement s.validators src t amount
  let s ← cardDecIf (decide (r.2 = 0)) { s with validators := r.1 } t
  let r ← increment add128 s.validators dst t amount
  cardIncIf (decide (r.2 = amount)) { s with validators := r.1 } t

/-- `StakeTracker::on_undelegate`, packages/cw-stake-tracker/src/lib.rs:101-126. -/
def onUndelegate (s : State) (t v amount duration : Nat) : Res State := do
  let e ← add64 t duration
  let r ← decrement s.total () e amount
  let s := { s with total := r.1 }
  let r ← decrement s.validators v e amount
  cardDecIf (decide (r.2 = 0) && decide (amount ≠ 0)) { s with validators := r.1 } e

/-- The closure of `on_bonded_slash`, packages/cw-stake-tracker/src/lib.rs:156-180. The state holds `was_nonzero` and
the cardinality changes: `(true, time)` for `Inc(time)`, `(false, time)` for `Dec(time)`. -/
def slashStep (amount : Nat) (st : Bool × List (Bool × Nat)) (staked time : Nat) :
    Res (Nat × (Bool × List (Bool × Nat))) := do
  let new ← sub128 staked amount
  if new = 0 ∧ st.1 = true then .ok (new, (false, st.2 ++ [(false, time)]))
  else if new ≠ 0 ∧ st.1 = false then .ok (new, (true, st.2 ++ [(true, time)]))
  else .ok (new, st)

/-- One cardinality change, packages/cw-stake-tracker/src/lib.rs:186-189. -/
def applyChange (inc : Bool) (time : Nat) (s : State) : Res State :=
  if inc then cardIncIf true s time else cardDecIf true s time

/-- The loop over the cardinality changes, packages/cw-stake-tracker/src/lib.rs:185-190. -/
def applyChanges : List (Bool × Nat) → State → Res State
  | [], s => .ok s
  | (inc, time) :: rest, s => do
    let s ← applyChange inc time s
    applyChanges rest s

/-- `StakeTracker::on_bonded_slash`, packages/cw-stake-tracker/src/lib.rs:136-193. -/
def onBondedSlash (s : State) (t v amount : Nat) : Res State := do
  let r ← decrement s.total () t amount
  let s := { s with total := r.1 }
  let r ← update 0 s.validators v t (slashStep amount) (true, [])
  applyChanges r.2.2.2 { s with validators := r.1 }

/-- The last step of `on_unbonding_slash`, packages/cw-stake-tracker/src/lib.rs:223-226. -/
def cardDangerIf (c : Bool) (s : State) (t : Nat) : Res State := do
  if c then
    let r ← dangerouslyUpdate 0 s.cardinality () t (fun v _ => sub128 v 1)
    .ok { s with cardinality := r.1 }
  else .ok s

/-- `StakeTracker::on_unbonding_slash`, packages/cw-stake-tracker/src/lib.rs:203-228. -/
def onUnbondingSlash (s : State) (t v amount : Nat) : Res State := do
  let r ← dangerouslyUpdate 0 s.total () t (fun x _ => sub128 x amount)
  let s := { s with total := r.1 }
  let r ← dangerouslyUpdate 0 s.validators v t (fun x _ => sub128 x amount)
  cardDangerIf (decide (r.2 = 0)) { s with validators := r.1 } t

/-- The calls. Delegations, redelegations and undelegations are registered when they happen; a slash may be
registered later than it happened (`at_`, in seconds). -/
inductive Call where
  | delegate (v amount : Nat)
  | redelegate (src dst amount : Nat)
  | undelegate (v amount duration : Nat)
  | bondedSlash (at_ v amount : Nat)
  | unbondingSlash (at_ v amount : Nat)
  deriving DecidableEq, Repr

/-- `Timestamp::seconds` of the block time. -/
def secs (b : Block) : Nat := b.time / 1000000000

/-- One call. -/
def step (s : State) (b : Block) : Call → Res (State × Unit)
  | .delegate v a => do let s ← onDelegate s (secs b) v a; .ok (s, ())
  | .redelegate src dst a => do let s ← onRedelegate s (secs b) src dst a; .ok (s, ())
  | .undelegate v a d => do let s ← onUndelegate s (secs b) v a d; .ok (s, ())
  | .bondedSlash t v a => do let s ← onBondedSlash s t v a; .ok (s, ())
  | .unbondingSlash t v a => do let s ← onUnbondingSlash s t v a; .ok (s, ())

/-- A tracker starts empty. -/
def sys : Sys State Block Call Unit where
  init _ s := s = empty
  block := id
  step := step

end Verif.StakeTracker
