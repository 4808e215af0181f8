import Verif.Model.Paginate
import Verif.Model.Single
import Verif.Model.Multiple
import Verif.Model.TokenStaked
import Verif.Model.Cw20Stake
import Verif.Model.NftStaked
import Verif.Model.Roles
import Verif.Model.PreProposeApproval
/-!
# The list queries of the contracts

Each on the state of the contract that answers it. Addresses and token numbers are ordered like their numbers here; on
chain they are ordered by their bytes. Validating the address of a start is not modelled.
-/

namespace Verif.Listings
open Verif Verif.Paginate

/-- `limit as usize` where the limit is a `u64`: on wasm32, where contracts run, this keeps 32 bits. -/
def asUsize (n : Nat) : Nat := n % 2 ^ 32

/-- `DEFAULT_LIMIT`, packages/dao-voting/src/proposal.rs:10. -/
def PROPOSALS_DEFAULT : Nat := 30

/-- The entries of a map from pairs whose first part is `k`: `Map::prefix` (cw-storage-plus). -/
def under {K V : Type} [DecidableEq K] (m : AMap (K × Nat) V) (k : K) : AMap Nat V :=
  m.filterMap (fun x => if x.1.1 = k then some (x.1.2, x.2) else none)

/-! ## dao-proposal-single -/

/-- `query_proposal`, contracts/proposal/dao-proposal-single/src/contract.rs:860-863, with `into_response`,
contracts/proposal/dao-proposal-single/src/proposal.rs:69-72: the proposal with its status of now. -/
def singleProposal (s : Single.State) (b : Block) (id : Nat) : Res Single.Proposal := do
  let p ← orErr (s.proposals.get id) .notFound
  p.updateStatus b

/-- A proposal of a list, with its number. -/
def singleEntry (b : Block) (x : Nat × Single.Proposal) : Res (Nat × Single.Proposal) := do
  let p ← x.2.updateStatus b
  .ok (x.1, p)

/-- `query_list_proposals`, contracts/proposal/dao-proposal-single/src/contract.rs:870-888. -/
def singleList (s : Single.State) (b : Block) (start limit : Option Nat) : Res (List (Nat × Single.Proposal)) :=
  ((range s.proposals start .asc).take (asUsize (limit.getD PROPOSALS_DEFAULT))).mapM (singleEntry b)

/-- `query_reverse_proposals`, contracts/proposal/dao-proposal-single/src/contract.rs:890-907. -/
def singleReverse (s : Single.State) (b : Block) (start limit : Option Nat) : Res (List (Nat × Single.Proposal)) :=
  ((range s.proposals start .desc).take (asUsize (limit.getD PROPOSALS_DEFAULT))).mapM (singleEntry b)

/-- `query_vote`, contracts/proposal/dao-proposal-single/src/contract.rs:918-928. -/
def singleVote (s : Single.State) (id : Nat) (a : Addr) : Option Single.Ballot := s.ballots.get (id, a)

/-- `query_list_votes`, contracts/proposal/dao-proposal-single/src/contract.rs:930-958. -/
def singleVotes (s : Single.State) (id : Nat) (start limit : Option Nat) : Res (List (Addr × Single.Ballot)) :=
  .ok ((range (under s.ballots id) start .asc).take (asUsize (limit.getD PROPOSALS_DEFAULT)))

/-! ## dao-proposal-multiple -/

/-- `query_proposal`, contracts/proposal/dao-proposal-multiple/src/contract.rs:881-884, with `into_response`,
contracts/proposal/dao-proposal-multiple/src/proposal.rs:69-72. -/
def multipleProposal (s : Multiple.State) (b : Block) (id : Nat) : Res Multiple.Proposal := do
  let p ← orErr (s.proposals.get id) .notFound
  p.updateStatus b

/-- A proposal of a list, with its number. -/
def multipleEntry (b : Block) (x : Nat × Multiple.Proposal) : Res (Nat × Multiple.Proposal) := do
  let p ← x.2.updateStatus b
  .ok (x.1, p)

/-- `query_list_proposals`, contracts/proposal/dao-proposal-multiple/src/contract.rs:891-908. -/
def multipleList (s : Multiple.State) (b : Block) (start limit : Option Nat) : Res (List (Nat × Multiple.Proposal)) :=
  ((range s.proposals start .asc).take (asUsize (limit.getD PROPOSALS_DEFAULT))).mapM (multipleEntry b)

/-- `query_reverse_proposals`, contracts/proposal/dao-proposal-multiple/src/contract.rs:910-927. -/
def multipleReverse (s : Multiple.State) (b : Block) (start limit : Option Nat) :
    Res (List (Nat × Multiple.Proposal)) :=
  ((range s.proposals start .desc).take (asUsize (limit.getD PROPOSALS_DEFAULT))).mapM (multipleEntry b)

/-- `query_vote`, contracts/proposal/dao-proposal-multiple/src/contract.rs:938-948. -/
def multipleVote (s : Multiple.State) (id : Nat) (a : Addr) : Option Multiple.Ballot := s.ballots.get (id, a)

/-- `query_list_votes`, contracts/proposal/dao-proposal-multiple/src/contract.rs:950-978. -/
def multipleVotes (s : Multiple.State) (id : Nat) (start limit : Option Nat) : Res (List (Addr × Multiple.Ballot)) :=
  .ok ((range (under s.ballots id) start .asc).take (asUsize (limit.getD PROPOSALS_DEFAULT)))

/-! ## Stakers, members and tokens -/

/-- `DEFAULT_LIMIT` and `MAX_LIMIT`, contracts/voting/dao-voting-token-staked/src/contract.rs:51-52 and
contracts/external/cw721-roles/src/contract.rs:27-28. -/
def STAKERS_DEFAULT : Nat := 10

/-- See `STAKERS_DEFAULT`. -/
def STAKERS_MAX : Nat := 30

/-- `query_list_stakers`, contracts/voting/dao-voting-token-staked/src/contract.rs:462-483. -/
def tokenStakers (s : TokenStaked.State) (start limit : Option Nat) : Res (List (Addr × Nat)) :=
  .ok ((range s.staked.cur start .asc).take (min (limit.getD STAKERS_DEFAULT) STAKERS_MAX))

/-- `query_list_stakers`, contracts/staking/cw20-stake/src/contract.rs:430-456. -/
def cw20Stakers (s : Cw20Stake.State) (start limit : Option Nat) : Res (List (Addr × Nat)) :=
  .ok (paginateMap s.staked.cur start limit .asc)

/-- `query_list_members`, contracts/external/cw721-roles/src/contract.rs:474-495. -/
def roleMembers (s : Roles.State) (start limit : Option Nat) : Res (List (Addr × Nat)) :=
  .ok ((range s.members.cur start .asc).take (min (limit.getD STAKERS_DEFAULT) STAKERS_MAX))

/-- `query_staked_nfts`, contracts/voting/dao-voting-cw721-staked/src/contract.rs:622-643 and, with the same code,
contracts/voting/dao-voting-onft-staked/src/contract.rs:668-689. -/
def stakedNfts (s : NftStaked.State) (a : Addr) (start limit : Option Nat) : Res (List (Nat × Unit)) :=
  .ok (match limit with
    | some l => (range (under s.staked a) start .asc).take l
    | none => range (under s.staked a) start .asc)

/-! ## dao-pre-propose-approval-single -/

variable {M : PrePropose.PropModule}

/-- `PendingProposals` and `ReversePendingProposals`,
contracts/pre-propose/dao-pre-propose-approval-single/src/contract.rs:358-379. The number of a submission is a part of
what is listed. -/
def pendingList (s : PrePropose.Approval M) (o : Order) (start limit : Option Nat) :
    Res (List (Nat × PrePropose.Submission M)) := .ok (paginateMap s.pending start limit o)

/-- `CompletedProposals` and `ReverseCompletedProposals`,
contracts/pre-propose/dao-pre-propose-approval-single/src/contract.rs:383-403. -/
def completedList (s : PrePropose.Approval M) (o : Order) (start limit : Option Nat) :
    Res (List (Nat × (PrePropose.Submission M × PrePropose.Decision))) := .ok (paginateMap s.completed start limit o)

end Verif.Listings
