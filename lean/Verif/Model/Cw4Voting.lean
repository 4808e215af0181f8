import Verif.Base.SnapHistory
/-!
# Model of `contracts/voting/dao-voting-cw4`

The module keeps no weights: it asks a cw4-group contract. That contract is an external crate (cw-plus,
version 1.1.2 in Cargo.lock); it is modelled here as documented and as that version does it, because the
module's claims are about it. Simplifications, all of them: addresses validate and are numbers, ordered as
numbers; event attributes, the cw2 version, `migrate`, labels, code ids and the group's hooks are dropped;
instantiation and its reply are one step, as they are one transaction.
-/

namespace Verif.Cw4Voting
open Verif

/-- `cw4::Member`: address and weight. -/
abbrev Member := Addr × Nat

/-- Insert before the first greater address: keeps equal addresses in their order. -/
def insertMember (m : Member) : List Member → List Member
  | [] => [m]
  | x :: xs => if m.1 ≤ x.1 then m :: x :: xs else x :: insertMember m xs

/-- `sort_by(|a, b| a.addr.cmp(&b.addr))`, a stable sort,
contracts/voting/dao-voting-cw4/src/contract.rs:41; also in cw4-group's `validate_unique_members`. -/
def sortMembers : List Member → List Member
  | [] => []
  | m :: ms => insertMember m (sortMembers ms)

/-- `dedup`: of neighbours that are equal only the first stays,
contracts/voting/dao-voting-cw4/src/contract.rs:42. -/
def dedup : List Member → List Member
  | [] => []
  | [m] => [m]
  | m :: m' :: ms => if m = m' then dedup (m' :: ms) else m :: dedup (m' :: ms)

/-! ## cw4-group -/

/-- The storage of cw4-group: admin, members and total weight. -/
structure Group where
  admin : Option Addr
  members : Snap Addr Nat
  total : Snap Unit Nat
  deriving DecidableEq, Repr

/-- The loop of cw4-group's `create`. -/
def saveAll (h : Nat) : List Member → Snap Addr Nat → Nat → Res (Snap Addr Nat × Nat)
  | [], s, t => .ok (s, t)
  | (a, n) :: ms, s, t => do
    let t' ← add64 t n
    saveAll h ms (s.save a n h) t'

/-- cw4-group's `create`: members may not repeat; the sum fits a `u64`. -/
def createGroup (b : Block) (admin : Option Addr) (ms : List Member) : Res Group := do
  require (decide (ms.map (·.1)).Nodup) (.custom 1)
  let r ← saveAll b.height (sortMembers ms) Snap.empty 0
  .ok { admin := admin, members := r.1, total := Snap.empty.save () r.2 b.height }

/-- cw4-group's `ExecuteMsg`, without the hooks. -/
inductive Msg where
  | updateAdmin (admin : Option Addr)
  | updateMembers (remove : List Addr) (add : List Member)
  deriving DecidableEq, Repr

/-- The first loop of cw4-group's `update_members`. -/
def addAll (h : Nat) : List Member → Snap Addr Nat → Nat → Res (Snap Addr Nat × Nat)
  | [], s, t => .ok (s, t)
  | (a, n) :: ms, s, t => do
    let t1 ← sub128 t ((s.get a).getD 0)
    let t2 ← add64 t1 n
    addAll h ms (s.save a n h) t2

/-- One round of the second loop of `update_members`: only an existing member is removed. -/
def removeOne (h : Nat) (a : Addr) (s : Snap Addr Nat) (t : Nat) : Res (Snap Addr Nat × Nat) :=
  match s.get a with
  | none => .ok (s, t)
  | some n => do
    let t' ← sub128 t n
    .ok (s.remove a h, t')

/-- The second loop of `update_members`. -/
def removeAll (h : Nat) : List Addr → Snap Addr Nat → Nat → Res (Snap Addr Nat × Nat)
  | [], s, t => .ok (s, t)
  | a :: as, s, t => do
    let r ← removeOne h a s t
    removeAll h as r.1 r.2

/-- cw4-group's `execute`. -/
def execGroup (g : Group) (b : Block) (sender : Addr) : Msg → Res Group
  | .updateAdmin a => do
    require (decide (g.admin = some sender)) .unauthorized
    .ok { g with admin := a }
  | .updateMembers remove add => do
    require (decide (add.map (·.1)).Nodup) (.custom 1)
    require (decide (g.admin = some sender)) .unauthorized
    let t ← orErr (g.total.get ()) .notFound
    let r ← addAll b.height (sortMembers add) g.members t
    let r' ← removeAll b.height remove r.1 r.2
    .ok { g with members := r'.1, total := g.total.save () r'.2 b.height }

/-- A call and its sender. -/
structure Call where
  sender : Addr
  msg : Msg
  deriving DecidableEq, Repr

/-- cw4-group alone. -/
def groupSys : Sys Group Block Call Unit where
  init b g := ∃ admin ms, createGroup b admin ms = .ok g
  block b := b
  step g b c := do
    let g' ← execGroup g b c.sender c.msg
    .ok (g', ())

/-! ## The voting module -/

/-- The storage of the contract, contracts/voting/dao-voting-cw4/src/state.rs:4-5, and the group it points
to. -/
structure World where
  dao : Addr
  groupContract : Addr
  group : Group
  deriving DecidableEq, Repr

/-- The sum of the weights, contracts/voting/dao-voting-cw4/src/contract.rs:49-58; a `Uint128`. -/
def sumWeights : List Member → Nat → Res Nat
  | [], t => .ok t
  | (_, n) :: ms, t => if 0 < n then do
      let t' ← add128 t n
      sumWeights ms t'
    else sumWeights ms t

/-- `instantiate` with a new group, contracts/voting/dao-voting-cw4/src/contract.rs:32-83, with the reply,
contract.rs:185-204. `group` is the address of the new contract. -/
def instantiateNew (b : Block) (dao group : Addr) (ms : List Member) : Res World := do
  require (decide (ms ≠ [])) .invalid
  let sorted := dedup (sortMembers ms)
  require (decide (sorted.length = ms.length)) (.custom 2)
  let t ← sumWeights sorted 0
  require (decide (t ≠ 0)) (.custom 3)
  let g ← createGroup b (some dao) sorted
  .ok { dao := dao, groupContract := group, group := g }

/-- `instantiate` with an existing group, contracts/voting/dao-voting-cw4/src/contract.rs:84-105. -/
def instantiateExisting (dao group : Addr) (g : Group) : Res World := do
  require (decide (g.members.cur ≠ [])) .invalid
  .ok { dao := dao, groupContract := group, group := g }

/-- `query_voting_power_at_height`, contracts/voting/dao-voting-cw4/src/contract.rs:132-152, over cw4-group's
`query_member`: the power and the height it is said to be for. -/
def power (w : World) (b : Block) (a : Addr) (h : Option Nat) : Nat × Nat :=
  ((match h with
    | some x => w.group.members.atHeight a x
    | none => w.group.members.get a).getD 0, h.getD b.height)

/-- `query_total_power_at_height`, contracts/voting/dao-voting-cw4/src/contract.rs:154-164, over cw4-group's
`query_total_weight`. -/
def totalPower (w : World) (b : Block) (h : Option Nat) : Nat × Nat :=
  ((match h with
    | some x => w.group.total.atHeight () x
    | none => w.group.total.get ()).getD 0, h.getD b.height)

/-- Calls of the group, and of the module, whose `execute` refuses everything,
contracts/voting/dao-voting-cw4/src/contract.rs:110-117. -/
inductive VCall where
  | group (c : Call)
  | module (sender : Addr)
  deriving DecidableEq, Repr

/-- One transaction. -/
def step (w : World) (b : Block) : VCall → Res (World × Unit)
  | .group c => do
    let g ← execGroup w.group b c.sender c.msg
    .ok ({ w with group := g }, ())
  | .module _ => .error .invalid

/-- The two ways a module comes to be. -/
inductive Created (b : Block) : World → Prop where
  | new {dao group : Addr} {ms : List Member} {w : World} (h : instantiateNew b dao group ms = .ok w) :
      Created b w
  | existing {dao group : Addr} {g : Group} {b0 : Block} {log : List (Ev Group Block Call Unit)} {w : World}
      (hg : groupSys.Reach g b0 log) (hb : b0.le b) (h : instantiateExisting dao group g = .ok w) :
      Created b w

/-- The module over its group. -/
def sys : Sys World Block VCall Unit where
  init := Created
  block b := b
  step := step

end Verif.Cw4Voting
