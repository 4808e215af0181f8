import Verif.Model.Hooks
/-! # Specification of hook lists -/

namespace Verif.Spec
open Verif

/-- The receivers of `l` whose delivery did not fail; `fails` says which receivers fail. -/
def survivors (l : List Addr) (fails : Addr → Bool) : List Addr := l.filter (fun a => !fails a)

/-- The first `a` in `l` is gone and nothing else. -/
def WithoutOne (l l' : List Addr) (a : Addr) : Prop :=
  ∃ l1 l2, l = l1 ++ a :: l2 ∧ l' = l1 ++ l2

end Verif.Spec
