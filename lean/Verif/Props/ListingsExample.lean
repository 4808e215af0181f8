import Verif.Props.ListingsSingle
import Verif.Props.ListingsMultiple
import Verif.Props.ListingsOthers
import Verif.Props.SingleExamples
/-!
# C103: concrete lists
-/

namespace Verif.Listings
open Verif Verif.Paginate Verif.Single

/-- The state after the first seven calls of `Single.history`. -/
def midway : Option (State × Block × List Event) :=
  match instantiate (at_ 0 100) (cfg false) .anyoneMayPropose with
  | .ok (s, _) => play s (at_ 0 100).block (history.take 7)
  | .error _ => none

/-- Numbers and statuses of a page. -/
def brief (r : Res (List (Nat × Proposal))) : List (Nat × Voting.Status) :=
  match r with
  | .ok l => l.map (fun x => (x.1, x.2.status))
  | .error _ => []

/-- Two proposals, one to a page; in block 30 the first is shown as passed and the second as rejected although the
records still say that the first waits in its timelock and that the second is open. The votes of the first, two to a
page. -/
theorem C103_example : (midway.map fun r => (r.1.proposals.map (fun x => (x.1, x.2.status)),
      [brief (singleList r.1 ⟨30, 30⟩ none (some 1)), brief (singleList r.1 ⟨30, 30⟩ (some 1) (some 1)),
        brief (singleList r.1 ⟨30, 30⟩ (some 2) (some 1)), brief (singleReverse r.1 ⟨30, 30⟩ none (some 1)),
        brief (singleReverse r.1 ⟨30, 30⟩ none none)])) =
    some ([(1, .vetoTimelock (.atHeight 16)), (2, .opened)],
      [[(1, .passed)], [(2, .rejected)], [], [(2, .rejected)], [(2, .rejected), (1, .passed)]]) := by
  decide +kernel

theorem C103_example_votes : (midway.map fun r => [singleVotes r.1 1 none (some 2), singleVotes r.1 1 (some 2) (some 2),
      singleVotes r.1 1 (some 3) (some 2)]) =
    some [.ok [(1, ⟨4, .yes, none⟩), (2, ⟨3, .yes, none⟩)], .ok [(3, ⟨2, .no, some 5⟩)], .ok []] := by
  decide +kernel

/-- A limit that is a multiple of 2 to the 32 is no limit a client can use: the page is empty although there are
proposals. A limit of one more is a limit of one. -/
theorem C103_limit_witness : (midway.map fun r => (brief (singleList r.1 ⟨30, 30⟩ none (some (2 ^ 32))),
      brief (singleList r.1 ⟨30, 30⟩ none (some (2 ^ 32 + 1))), r.1.count)) =
    some ([], [(1, .passed)], 2) := by
  decide +kernel


/-- Stakers of dao-voting-token-staked: who took everything out stays on the list, with nothing. -/
theorem C103_example_stakers : (match TokenStaked.sys.play TokenStaked.exW ⟨1, 1⟩
      [(⟨2, 2⟩, .stake 2 60), (⟨3, 3⟩, .stake 3 5), (⟨4, 4⟩, .exec 3 (.unstake 5))] with
    | some (w, _, _) => decide (tokenStakers w.c none (some 1) = .ok [(2, 60)] ∧
        tokenStakers w.c (some 2) (some 1) = .ok [(3, 0)] ∧ tokenStakers w.c (some 3) (some 1) = .ok [] ∧
        w.c.total = 60)
    | none => false) = true := by decide +kernel

end Verif.Listings
