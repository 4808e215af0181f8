import Verif.Model.RewardedDao
import Verif.Spec.DaoRewards
import Verif.Spec.WholeDao
/-!
# Specification: a rewards distributor with a real voting module
-/

namespace Verif.Spec.RewardedDao
open Verif Verif.RewardedDao

variable {S E C O : Type}

/-- What the distributor relies on in a voting module beside `Lawful`: messages name everybody whose weight changes, and
a listener that is told nothing can rely on it that nothing changed. -/
structure Tells (V : Telling S E C O) : Prop where
  /-- a message to a listener names somebody, and everybody whose weight changes -/
  names : ∀ {s s' : S} {e : E} {c : C} {o : O}, V.sys.step s e c = .ok (s', o) → ∀ m ∈ V.told o,
    m.2 ≠ [] ∧ ∀ a, a ∉ m.2 → V.weight s' a = V.weight s a
  /-- a change reaches every listener -/
  reaches : ∀ {s s' : S} {e : E} {c : C} {o : O}, V.sys.step s e c = .ok (s', o) → ∀ r ∈ V.listeners s,
    (∀ m ∈ V.told o, m.1 ≠ r) → ∀ a, V.weight s' a = V.weight s a

/-- A call of the voting module. -/
def isVote : Call E C → Bool
  | .vote _ _ => true
  | .rewards _ => false

/-- The transactions of the distributor in a history, as its own model has them. -/
def rewardsLog : List (Event S E C) → List DaoRewards.Event
  | [] => []
  | e :: before => match e.call with
    | .rewards c => ⟨e.pre.rew, e.env, c, e.out, e.post.rew⟩ :: rewardsLog before
    | .vote _ _ => rewardsLog before

/-- While the distribution rewards the members of the voting module, its hook caller is the contract that sends the
messages, and the distributor listens there. -/
def Listening (V : Telling S E C O) (id : Nat) (log : List (Event S E C)) : Prop :=
  ∀ e ∈ log, isVote e.call = true → ∀ d, e.pre.rew.c.dists.get id = some d → d.vp = e.pre.vp →
    d.hookCaller = e.pre.caller ∧ e.pre.rew.me ∈ V.listeners e.pre.vote

/-- A transaction of the distributor hands out funds of the distribution at once to the members of `vp`: it funds an
immediate distribution or a continuous one that has run out, makes it immediate, or creates it so with funds. -/
inductive Hands (id : Nat) (e : DaoRewards.Event) : Addr → Prop where
  | funds {d : DaoRewards.Dist} (hd : e.pre.c.dists.get id = some d) (h : Spec.DaoRewards.AtOnce id e d) : Hands id e d.vp
  | creates {a : Addr} {coins : List (Nat × Nat)} {token : Token} {vp hook : Addr} {o : Option Bool} {dest : Option Addr}
      (h : e.call = .exec a coins (.create token .immediate vp hook o dest)) (hid : e.pre.c.count + 1 = id)
      (hc : coins ≠ []) : Hands id e vp

/-- The voting contract has not been called in this block before; `before` is what happened since the distributor was
created in block `b0`. Of other voting contracts: no power changed. -/
def QuietSoFar (b0 : Block) (before : List (Event S E C)) (w : World S) (b : Block) (vp : Addr) : Prop :=
  (vp = w.vp → b0.height < b.height ∧ ∀ e ∈ before, isVote e.call = true → e.env.height < b.height) ∧
  (vp ≠ w.vp → (w.rew.vote vp).since < b.height)

/-- Nothing is handed out at once in a block in which the voting contract has already been called. -/
def Calm (b0 : Block) (id : Nat) : List (Event S E C) → Prop
  | [] => True
  | e :: before => (∀ c vp, e.call = .rewards c → Hands id ⟨e.pre.rew, e.env, c, e.out, e.post.rew⟩ vp →
      QuietSoFar b0 before e.pre e.env vp) ∧ Calm b0 id before

/-- What a member can claim from a distribution in a block. -/
def claimable (V : Telling S E C O) (w : World S) (b : Block) (id : Nat) (a : Addr) : Nat :=
  match DaoRewards.queryPending w.rew.c b (answers V w b) a id with
  | .ok n => n
  | .error _ => 0

/-- The contract can answer what a member can claim from a distribution in a block. -/
def Shows (V : Telling S E C O) (w : World S) (b : Block) (id : Nat) (a : Addr) : Prop :=
  ∃ n, DaoRewards.queryPending w.rew.c b (answers V w b) a id = .ok n

/-- What a history must keep to for a distribution: the distributor is told of changes, the owner gives it no other voting
contract, and nothing is handed out at once in a block in which powers may have changed. -/
structure Regular (V : Telling S E C O) (b0 : Block) (id : Nat) (log : List (Event S E C)) : Prop where
  listening : Listening V id log
  others : Spec.DaoRewards.Announced id (rewardsLog log)
  same : Spec.DaoRewards.SameVotes id (rewardsLog log)
  calm : Calm b0 id log

end Verif.Spec.RewardedDao
