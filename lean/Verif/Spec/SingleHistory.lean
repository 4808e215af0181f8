import Verif.Model.Single
/-!
# Specification: histories of single choice proposals

Words used in the statements about dao-proposal-single.
-/

namespace Verif.Spec
open Verif Verif.Voting Verif.Single

/-- Summed power of the recorded ballots on proposal `id` that vote `v`. -/
def ballotSum (s : State) (id : Nat) (v : Vote) : Nat :=
  AMap.sum (fun k b => if k.1 = id ∧ b.vote = v then b.power else 0) s.ballots

/-- The counter of a tally for one position. -/
def countOf (t : Votes) : Vote → Nat
  | .yes => t.yes
  | .no => t.no
  | .abstain => t.abstain

/-- The allowed changes of the recorded status, one at a time. `executed`, `executionFailed`, `closed`
and `vetoed` have no successor. -/
inductive Edge : Status → Status → Prop where
  | pass : Edge .opened .passed
  | reject : Edge .opened .rejected
  | lock (e : Expiration) : Edge .opened (.vetoTimelock e)
  | vetoOpen : Edge .opened .vetoed
  | unlock (e : Expiration) : Edge (.vetoTimelock e) .passed
  | vetoLocked (e : Expiration) : Edge (.vetoTimelock e) .vetoed
  | execEarly (e : Expiration) : Edge (.vetoTimelock e) .executed
  | execEarlyFailed (e : Expiration) : Edge (.vetoTimelock e) .executionFailed
  | exec : Edge .passed .executed
  | execFailed : Edge .passed .executionFailed
  | close : Edge .rejected .closed

/-- Any number of allowed changes. -/
inductive Path : Status → Status → Prop where
  | refl (a : Status) : Path a a
  | snoc {a b c : Status} (h : Path a b) (e : Edge b c) : Path a c

/-- The status is final. -/
def Final : Status → Prop
  | .executed | .executionFailed | .closed | .vetoed => True
  | _ => False

/-- Throughout the history the voting module answers power queries by one function `P` of address and
height and one function `T` of height, and at every height the powers of any set of addresses add up
to at most the total. -/
structure StablePowers (log : List Event) (P : Addr → Nat → Nat) (T : Nat → Nat) : Prop where
  power : ∀ e ∈ log, ∀ a h, e.env.power e.pre.config.dao a h = P a h
  total : ∀ e ∈ log, ∀ h, e.env.total e.pre.config.dao h = T h
  bounded : ∀ h (l : List Addr), l.Nodup → (l.map (fun a => P a h)).sum ≤ T h

/-- The call is an execution of proposal `id`. -/
def isExecuteOf (id : Nat) : Call → Bool
  | .execute i _ => i == id
  | _ => false

/-- The call is a veto of proposal `id`. -/
def isVetoOf (id : Nat) : Call → Bool
  | .veto i => i == id
  | _ => false

/-- The message asks a DAO to run a proposal's messages. -/
def isExecuteOnDao : Msg → Bool
  | .executeOnDao _ _ => true
  | _ => false

/-- The call is a reply (not callable by users). -/
def isReply : Call → Bool
  | .replyFailedProposalHook _ | .replyFailedVoteHook _ | .replyPreProposeInstantiated _
  | .replyFailedPreProposeHook => true
  | _ => false

end Verif.Spec
