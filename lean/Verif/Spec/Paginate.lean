import Verif.Model.Paginate
/-!
# Specification vocabulary for pagination
-/

namespace Verif.Spec.Paginate
open Verif.Paginate

/-- What a client does: ask for a page, then for the page after the last key seen, until a page is empty, at most `n`
times. -/
def follow {V : Type} (page : Option Nat → List (Nat × V)) : Nat → Option Nat → List (List (Nat × V))
  | 0, _ => []
  | n + 1, start =>
    match (page start).getLast? with
    | none => []
    | some p => page start :: follow page n (some p.1)

/-- Keys strictly follow one another in an order. -/
def InOrder {V : Type} (o : Order) (l : List (Nat × V)) : Prop :=
  match o with
  | .asc => l.Pairwise (fun p q => p.1 < q.1)
  | .desc => l.Pairwise (fun p q => q.1 < p.1)

end Verif.Spec.Paginate
