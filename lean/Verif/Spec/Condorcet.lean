import Verif.Model.Condorcet
/-!
# Specification: Condorcet elections

Ballots, pairwise support and winners, written from the definition of a Condorcet election and without
the matrix of the code.
-/

namespace Verif.Spec.Condorcet
open Verif Verif.Condorcet

/-- A ballot: the candidates from most to least favoured, and the voter's power. -/
structure Ballot where
  ranking : List Nat
  power : Nat
  deriving DecidableEq, Repr

/-- The ranking names each of the `n` candidates exactly once. -/
def IsRanking (n : Nat) (r : List Nat) : Prop := r.Nodup ∧ ∀ c, c ∈ r ↔ c < n

/-- `x` is ranked above `y`. -/
def prefers (r : List Nat) (x y : Nat) : Bool := decide (r.idxOf x < r.idxOf y)

/-- The power of the voters who ranked `x` above `y`. -/
def support : List Ballot → Nat → Nat → Nat
  | [], _, _ => 0
  | b :: bs, x, y => (if prefers b.ranking x y then b.power else 0) + support bs x y

/-- All power cast. -/
def castPower : List Ballot → Nat
  | [] => 0
  | b :: bs => b.power + castPower bs

/-- `x` is preferred to every other candidate by more power than prefers the other. -/
def CondorcetWinner (n : Nat) (bs : List Ballot) (x : Nat) : Prop :=
  x < n ∧ ∀ y, y < n → y ≠ x → support bs y x < support bs x y

/-- Further ballots that the outstanding power `o` allows. -/
def Allowed (n o : Nat) (extra : List Ballot) : Prop :=
  (∀ b ∈ extra, IsRanking n b.ranking) ∧ castPower extra ≤ o

/-- The ballots accepted on proposal `id`, oldest first: the ranking sent, with the power the voting
module reported for the sender at the start of the proposal. -/
def ballotsOn (id : Nat) : List Event → List Ballot
  | [] => []
  | e :: log =>
    ballotsOn id log ++
      match e.call with
      | .vote i r =>
        if i = id then
          [⟨r, e.env.power e.pre.dao e.env.sender (((e.pre.tallies.get i).map (·.startHeight)).getD 0)⟩]
        else []
      | _ => []

/-- The voters on proposal `id`. -/
def votersOn (id : Nat) : List Event → List Addr
  | [] => []
  | e :: log =>
    votersOn id log ++
      match e.call with
      | .vote i _ => if i = id then [e.env.sender] else []
      | _ => []

/-- The integer a cell stands for. -/
def cellValue : Cell → Int
  | .positive n => n
  | .zero => 0
  | .negative n => -n

/-- Executed, failed in execution, or closed: nothing can happen any more. -/
def Final : Status → Prop
  | .executed | .closed | .executionFailed => True
  | _ => False

/-- The transitions between reported statuses. -/
inductive Edge : Status → Status → Prop where
  | pass (w : Nat) : Edge .opened (.passed w)
  | reject : Edge .opened .rejected
  | execute (w : Nat) : Edge (.passed w) .executed
  | fail (w : Nat) : Edge (.passed w) .executionFailed
  | close : Edge .rejected .closed

/-- Reachability along `Edge`. -/
inductive Path : Status → Status → Prop where
  | refl (s : Status) : Path s s
  | tail {a b c : Status} (h : Path a b) (e : Edge b c) : Path a c

end Verif.Spec.Condorcet
