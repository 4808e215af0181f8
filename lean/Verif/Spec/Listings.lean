import Verif.Model.Listings
/-!
# Specification: what a client that follows the pages of a list sees
-/

namespace Verif.Spec.Listings
open Verif

/-- A client asks for a page, then for the page after the last entry it was shown, and so on, and stops when a page is
empty. Every query answers. What it has been shown then is the list, page after page. -/
inductive Pages {V : Type} (page : Option Nat → Res (List (Nat × V))) : Option Nat → List (Nat × V) → Prop where
  | done {start : Option Nat} (h : page start = .ok []) : Pages page start []
  | more {start : Option Nat} {l rest : List (Nat × V)} {last : Nat × V} (h : page start = .ok l)
      (hl : l.getLast? = some last) (hr : Pages page (some last.1) rest) : Pages page start (l ++ rest)

end Verif.Spec.Listings
