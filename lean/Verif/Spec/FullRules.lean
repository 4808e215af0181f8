import Verif.Model.FullDao
import Verif.Spec.FullDao
import Verif.Spec.OwnRules
import Verif.Spec.Multiple
/-!
# Specification vocabulary for a DAO with all its proposal modules that changes its own rules and membership
-/

namespace Verif.Spec.FullRules
open Verif Verif.FullDao
open Verif.WholeDao (VotingModule)
open Verif.WholeCondorcet (Now)
open Verif.Spec.FullDao (Authorised Steady Governed TotalsOfHeight)

variable {S E C O : Type}

/-- What is said to a part of the DAO: to the proposal module at an address, or to the voting module and the contracts behind
it. -/
inductive Said (C : Type) where
  | single (a : Addr) (c : Single.Call)
  | multi (a : Addr) (c : Multiple.Call)
  | condorcet (a : Addr) (c : Condorcet.Call)
  | vote (c : C)
  deriving DecidableEq

/-- What a call says, and to whom. Answers of the chain to what a proposal module sent are nobody's messages. -/
def said : Call E C → Option (Said C)
  | .core _ => none
  | .spawn _ _ => none
  | .single a c => if Spec.isReply c then none else some (.single a c)
  | .multi a c => if Multi.isReply c then none else some (.multi a c)
  | .condorcet a c => some (.condorcet a c)
  | .vote _ c => some (.vote c)

/-- Who says it; `caller` tells this for the voting module and the contracts behind it. -/
def speaker (caller : E → C → Option Addr) (e : Env) : Call E C → Option Addr
  | .vote g c => caller g c
  | _ => some e.sender

/-- What the DAO says to its modules comes off its list of messages to send: when the DAO is the caller, the step before is
the delivery of the message that says so. `toCall n` is what `other n` says, if it is for the modules. -/
def FromList (caller : E → C → Option Addr) (toCall : Nat → Option (Said C)) (log : List (Event S E C)) : Prop :=
  ∀ later before e x, log = later ++ e :: before → said e.call = some x →
    speaker caller e.env e.call = some e.pre.core.core.me →
    ∃ e' rest r n tl, before = e' :: rest ∧ e'.call = .core (.deliver r) ∧
      e'.pre.core.stack = .send (.other n) :: tl ∧ toCall n = some x

/-- The members of the DAO decided in one of its proposal modules that this be said, or it was to be said at the founding. -/
def Decreed (V : VotingModule S E C O) (decode : Nat → DaoCore.CosmosMsg) (toCall : Nat → Option (Said C))
    (first : List DaoCore.Sub) (log : List (Event S E C)) (x : Said C) : Prop :=
  ∃ n, toCall n = some x ∧ Authorised V decode first log (.send (.other n))

/-- A history of a DAO from its beginning, that keeps its voting module, has no outside admin and has the modules it created;
totals asked for without a height are those of the height. -/
structure History (V : VotingModule S E C O) (N : Now S) (decode : Nat → DaoCore.CosmosMsg) (caller : E → C → Option Addr)
    (toCall : Nat → Option (Said C)) (w0 w : World S) (b0 b : Block) (log : List (Event S E C)) : Prop where
  init : Init V b0 w0
  run : (sys V N decode).Run w0 b0 log w b
  steady : Steady log
  governed : Governed log
  totals : TotalsOfHeight V N log
  fromList : FromList caller toCall log

/-- The same rules for making and deciding proposals. -/
def SameRules : Module → Module → Prop
  | .single s, .single s' => s'.config = s.config
  | .multi s, .multi s' => s'.config = s.config
  | .condorcet s, .condorcet s' => s'.config = s.config ∧ s'.dao = s.dao
  | _, _ => False

/-- The same people may propose, and the same listeners are told. -/
def SamePublic : Module → Module → Prop
  | .single s, .single s' => s'.policy = s.policy ∧ s'.proposalHooks = s.proposalHooks ∧ s'.voteHooks = s.voteHooks
  | .multi s, .multi s' => s'.policy = s.policy ∧ s'.proposalHooks = s.proposalHooks ∧ s'.voteHooks = s.voteHooks
  | .condorcet _, .condorcet _ => True
  | _, _ => False

/-- An answer of the chain to what a proposal module sent. -/
def isAnswer : Call E C → Bool
  | .single _ c => Spec.isReply c
  | .multi _ c => Multi.isReply c
  | _ => false

/-- Said to the module at this address. -/
def Said.dest : Said C → Option Addr
  | .single a _ => some a
  | .multi a _ => some a
  | .condorcet a _ => some a
  | .vote _ => none

/-- An event is a call of the voting module, or of a contract behind it, that the members decided on. -/
def VotingDecreed (V : VotingModule S E C O) (decode : Nat → DaoCore.CosmosMsg) (toCall : Nat → Option (Said C))
    (first : List DaoCore.Sub) (log : List (Event S E C)) (e : Event S E C) : Prop :=
  ∃ g c, e.call = .vote g c ∧ Decreed V decode toCall first log (.vote c)

/-- In one of the proposal modules the members have decided that message `n` be sent, and `e.sender` may now have this carried
out by the call. The module belongs to the DAO, is enabled and asks the voting module of the DAO; the DAO is not paused; nobody
may veto the proposal. -/
inductive Passed (V : VotingModule S E C O) (w : World S) (log : List (Event S E C)) (e : Env) (n : Nat) : Call E C → Prop where
  | single {a : Addr} {s : Single.State} {id : Nat} {p : Single.Proposal} (module : w.mods.get a = some (.single s))
      (now : w.core.core.voting = some w.voteAddr ∧ s.config.dao = w.core.core.me)
      (proposal : s.proposals.get id = some p) (waits : p.status = .opened ∨ p.status = .passed) (veto : p.veto = none)
      (decided : FullDao.DecidedSingle V (fun x => FullDao.lastSingle a id x log) w.vote e.block p)
      (member : s.config.onlyMembersExecute = true → V.power w.vote e.sender p.startHeight ≠ 0)
      (runs : DaoCore.isPaused w.core.core e.block = false) (enabled : DaoCore.Enabled w.core.core a) (msgs : p.msgs = [n]) :
      Passed V w log e n (.single a (.execute id false))
  | multi {a : Addr} {s : Multiple.State} {id i : Nat} {p : Multiple.Proposal} (module : w.mods.get a = some (.multi s))
      (now : w.core.core.voting = some w.voteAddr ∧ s.config.dao = w.core.core.me)
      (proposal : s.proposals.get id = some p) (waits : p.status = .opened ∨ p.status = .passed) (veto : p.veto = none)
      (decided : FullDao.DecidedMulti V (fun x => FullDao.lastMulti a id x log) w.vote e.block p i)
      (member : s.config.onlyMembersExecute = true → V.power w.vote e.sender p.startHeight ≠ 0)
      (runs : DaoCore.isPaused w.core.core e.block = false) (enabled : DaoCore.Enabled w.core.core a)
      (msgs : p.choices[i]?.map (fun c => c.msgs) = some [n]) : Passed V w log e n (.multi a (.execute id false))
  | condorcet {a : Addr} {s : Condorcet.State} {id i : Nat} {p : Condorcet.Proposal} {t : Condorcet.Tally}
      (module : w.mods.get a = some (.condorcet s)) (now : w.core.core.voting = some w.voteAddr)
      (proposal : s.proposals.get id = some p) (tally : s.tallies.get id = some t) (waits : p.lastStatus = .opened)
      (decided : FullDao.DecidedCondorcet V (FullDao.rankings a id log) w.vote e.block p t i)
      (member : V.power w.vote e.sender t.startHeight ≠ 0)
      (runs : DaoCore.isPaused w.core.core e.block = false) (enabled : DaoCore.Enabled w.core.core a)
      (msgs : p.choices[i]? = some [n]) : Passed V w log e n (.condorcet a (.execute id false))

end Verif.Spec.FullRules
