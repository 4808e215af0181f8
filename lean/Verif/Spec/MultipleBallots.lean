import Verif.Model.Multiple
/-!
# Specification: who voted what, read off the calls of a history
-/

namespace Verif.Spec.Multi
open Verif Verif.Multiple

/-- The ballot a call casts: by whom, on which proposal, for what. A proposal may come with a vote of its proposer,
whom a pre-propose module names. The new proposal has the next number. -/
def ballotCast (e : Event) : Option (Addr × Nat × Vote) :=
  match e.call with
  | .vote id v _ => some (e.env.sender, id, v)
  | .propose g _ _ (some (v, _)) _ => some (g.getD e.env.sender, e.pre.count + 1, v)
  | _ => none

/-- The last vote of an address on a proposal in a history (newest call first). -/
def lastVote (a : Addr) (id : Nat) : List Event → Option Vote
  | [] => none
  | e :: rest =>
    match ballotCast e with
    | some (a', id', v) => if a' = a ∧ id' = id then some v else lastVote a id rest
    | none => lastVote a id rest

end Verif.Spec.Multi
