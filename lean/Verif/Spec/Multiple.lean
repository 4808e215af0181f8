import Verif.Model.Multiple
import Verif.Spec.SingleHistory
/-!
# Specification: multiple choice proposals

When a multiple choice proposal ought to pass, and words for histories. Written without the control flow
of the code.
-/

namespace Verif.Spec.Multi
open Verif
open Verif.Voting hiding Vote Votes
open Verif.Multiple Verif.Spec

/-- The weight of option `i` (0 for options that do not exist). -/
def weight (v : Votes) (i : Nat) : Nat := v.weights.getD i 0

/-- All weight cast. -/
def castTotal (v : Votes) : Nat := v.weights.sum

/-- Option `i` exists and has strictly more weight than each other option. -/
def StrictWinner (v : Votes) (i : Nat) : Prop :=
  i < v.weights.length ∧ ∀ j, j < v.weights.length → j ≠ i → weight v j < weight v i

/-- Option `i` of the proposal is "none of the above": the last one. -/
def IsNone (p : Proposal) (i : Nat) : Prop := i + 1 = p.votes.weights.length

/-- The fraction of the power that voted meets the quorum as the contract computes it (C01 relates this
to the exact fraction). -/
def Quorum (p : Proposal) : Prop := doesVoteCountPass (castTotal p.votes) p.totalPower p.quorum = .ok true

/-- `v'` is a later tally than `v`: further ballots were cast, none was withdrawn. -/
def MoreVotes (v v' : Votes) : Prop :=
  v.weights.length = v'.weights.length ∧ ∀ i, weight v i ≤ weight v' i

/-- The tally of `p` is replaced by `v'`. -/
def withVotes (p : Proposal) (v' : Votes) : Proposal := { p with votes := v' }

/-- Summed power of the recorded ballots on proposal `id` for option `v`. -/
def ballotSum (s : State) (id : Nat) (v : Vote) : Nat :=
  AMap.sum (fun k b => if k.1 = id ∧ b.vote = v then b.power else 0) s.ballots

/-- Throughout the history the voting module answers power queries by one function `P` of address and
height, its total power is the function `T` of the current height, and at every height the powers of
any set of addresses add up to at most the total. -/
structure StablePowers (log : List Event) (P : Addr → Nat → Nat) (T : Nat → Nat) : Prop where
  power : ∀ e ∈ log, ∀ a h, e.env.power e.pre.config.dao a h = P a h
  total : ∀ e ∈ log, e.env.totalNow e.pre.config.dao = T e.env.block.height
  bounded : ∀ h (l : List Addr), l.Nodup → (l.map (fun a => P a h)).sum ≤ T h

/-- The call is an execution of proposal `id`. -/
def isExecuteOf (id : Nat) : Call → Bool
  | .execute i _ => i == id
  | _ => false

/-- The call is a veto of proposal `id`. -/
def isVetoOf (id : Nat) : Call → Bool
  | .veto i => i == id
  | _ => false

/-- The message asks a DAO to run a proposal's messages. -/
def isExecuteOnDao : Msg → Bool
  | .executeOnDao _ _ => true
  | _ => false

/-- The call is a reply (not callable by users). -/
def isReply : Call → Bool
  | .replyFailedProposalHook _ | .replyFailedVoteHook _ | .replyPreProposeInstantiated _
  | .replyFailedPreProposeHook => true
  | _ => false

end Verif.Spec.Multi
