import Verif.Model.WholeCondorcet
import Verif.Spec.WholeDao
import Verif.Spec.SingleNearly
import Verif.Spec.Condorcet
/-!
# Specification vocabulary for a whole DAO with a condorcet module
-/

namespace Verif.Spec.WholeCondorcet
open Verif Verif.Voting Verif.WholeCondorcet
open Verif.WholeDao (VotingModule)
open Verif.Spec.Condorcet (Ballot castPower CondorcetWinner Allowed)

variable {S E C O : Type}

/-- Asked without a height, the voting module answers for the current height. -/
def AnswersNow (V : VotingModule S E C O) (N : Now S) : Prop :=
  ∀ {s : S} {b : Block} {l : List (Ev S E C O)}, V.sys.Reach s b l → ∀ b', b.le b' →
    N.total s b' = V.total s b'.height ∧ ∀ a, N.power s a b' = V.power s a b'.height

/-- Asked without a height, the voting module answers with what is held right now. -/
def AnswersNewest (V : VotingModule S E C O) (N : Now S) : Prop :=
  ∀ s b, N.total s b = V.totalWeight s ∧ ∀ a, N.power s a b = V.weight s a

/-- An event makes a proposal. -/
def proposes (e : Event S E C) : Prop := ∃ choices, e.call = .prop (.propose choices)

/-- Whenever a proposal was made, the total asked for without a height was the total of the height of that block. -/
def TotalsOfHeight (V : VotingModule S E C O) (N : Now S) (log : List (Event S E C)) : Prop :=
  ∀ e ∈ log, proposes e → N.total e.pre.vote e.env.block = V.total e.pre.vote e.env.block.height

/-- In the block of a proposal nobody calls the voting module before the proposal is made. -/
def Settled (b0 : Block) (log : List (Event S E C)) : Prop :=
  ∀ later e before, log = later ++ e :: before → proposes e → b0.height < e.env.block.height ∧
    ∀ e' ∈ before, (∃ ve c, e'.call = .vote ve c) → e'.env.block.height < e.env.block.height

/-- The calls of the proposal module in a history of the DAO. -/
def propLog (V : VotingModule S E C O) (N : Now S) : List (Event S E C) → List Condorcet.Event
  | [] => []
  | e :: rest =>
    match e.call, e.out.prop with
    | .prop c, some o => ⟨e.pre.prop, propEnv V N e.pre e.env, c, o, e.post.prop⟩ :: propLog V N rest
    | _, _ => propLog V N rest

/-- The votes on a proposal in a history of the DAO: who ranked the choices, and how; oldest first. -/
def votesOn (id : Nat) : List (Event S E C) → List (Addr × List Nat)
  | [] => []
  | e :: rest =>
    match e.call with
    | .prop (.vote i r) => votesOn id rest ++ if i = id then [(e.env.sender, r)] else []
    | _ => votesOn id rest

/-- The ballots: each ranking with the power the voting module has for its voter at a height. -/
def ballots (V : VotingModule S E C O) (s : S) (h : Nat) (l : List (Addr × List Nat)) : List Ballot :=
  l.map (fun v => ⟨v.2, V.power s v.1 h⟩)

/-- The members have decided for choice `i` of a proposal. Everybody has voted at most once. With the powers the voting
module has for the height at which the proposal was made (`t.startHeight`): the power that voted meets the quorum; and
choice `i` is preferred to each other choice by more power than prefers the other, now if voting is over, and otherwise
whatever those who have not voted yet may still do. The minimum voting period is over. `before` is what happened, `s` the
voting module, `b` the block. -/
def Decided (V : VotingModule S E C O) (before : List (Event S E C)) (s : S) (b : Block) (id : Nat)
    (p : Condorcet.Proposal) (t : Condorcet.Tally) (i : Nat) : Prop :=
  (∀ m, p.minVotingPeriod = some m → m.isExpired b = true) ∧
  ((votesOn id before).map Prod.fst).Nodup ∧
  Meets (castPower (ballots V s t.startHeight (votesOn id before))) (V.total s t.startHeight) p.quorum ∧
  if t.expiration.isExpired b then
    CondorcetWinner p.choices.length (ballots V s t.startHeight (votesOn id before)) i
  else ∀ later, Allowed p.choices.length
      (V.total s t.startHeight - castPower (ballots V s t.startHeight (votesOn id before))) later →
    CondorcetWinner p.choices.length (ballots V s t.startHeight (votesOn id before) ++ later) i

/-- `Decided`, with the quorum met but for less than a billionth of a vote. -/
def NearlyDecided (V : VotingModule S E C O) (before : List (Event S E C)) (s : S) (b : Block) (id : Nat)
    (p : Condorcet.Proposal) (t : Condorcet.Tally) (i : Nat) : Prop :=
  (∀ m, p.minVotingPeriod = some m → m.isExpired b = true) ∧
  ((votesOn id before).map Prod.fst).Nodup ∧
  NearlyMeets (castPower (ballots V s t.startHeight (votesOn id before))) (V.total s t.startHeight) p.quorum ∧
  if t.expiration.isExpired b then
    CondorcetWinner p.choices.length (ballots V s t.startHeight (votesOn id before)) i
  else ∀ later, Allowed p.choices.length
      (V.total s t.startHeight - castPower (ballots V s t.startHeight (votesOn id before))) later →
    CondorcetWinner p.choices.length (ballots V s t.startHeight (votesOn id before) ++ later) i

/-- The DAO keeps its voting module. -/
def Steady (log : List (Event S E C)) : Prop :=
  ∀ e ∈ log, e.pre.core.core.voting = some e.pre.voteAddr

/-- An event executes proposal `id`. -/
def executesId (id : Nat) (e : Event S E C) : Bool :=
  match e.call with
  | .prop (.execute id' _) => decide (id' = id)
  | _ => false

/-- An event executes a proposal of the proposal module, and the DAO takes its messages. -/
def Executes (e : Event S E C) (id : Nat) (p : Condorcet.Proposal) (t : Condorcet.Tally) : Prop :=
  e.call = .prop (.execute id false) ∧ e.pre.prop.proposals.get id = some p ∧ e.pre.prop.tallies.get id = some t

/-- In an event an executed proposal hands the DAO a message of the choice the members have decided for.
The quorum is met but for less than a billionth of a vote, and exactly if it has at most nine decimals. -/
def ByProposal (V : VotingModule S E C O) (decode : Nat → DaoCore.CosmosMsg) (log : List (Event S E C))
    (e : Event S E C) (m : DaoCore.CosmosMsg) : Prop :=
  ∃ later before id p t i msgs n, log = later ++ e :: before ∧ Executes e id p t ∧ p.choices[i]? = some msgs ∧ n ∈ msgs ∧
    m = decode n ∧ (NineDec p.quorum → Decided V before e.pre.vote e.env.block id p t i) ∧
    NearlyDecided V before e.pre.vote e.env.block id p t i

/-- The event of the core alone, if it was called directly. -/
def coreEvent (e : Event S E C) : Option DaoCore.Event :=
  match e.call with
  | .core c => some ⟨e.pre.core, coreEnv e.env, c, e.out.core, e.post.core⟩
  | _ => none

/-- The DAO has no outside admin and no other enabled proposal module. -/
def Sole (log : List (Event S E C)) : Prop :=
  ∀ e ∈ log, e.pre.core.core.admin = e.pre.core.core.me ∧
    ∀ a, DaoCore.Enabled e.pre.core.core a → a = e.pre.propAddr

/-- What goes back to a decision of the members: the messages of an executed proposal, and what the DAO sends in turn
because it was told to by such a message: messages in an admin message to itself, the creation of modules, and the
callbacks of modules so created. -/
inductive Authorised (V : VotingModule S E C O) (decode : Nat → DaoCore.CosmosMsg)
    (log : List (Event S E C)) : DaoCore.Sub → Prop where
  | proposal {e : Event S E C} {m : DaoCore.CosmosMsg} (h : ByProposal V decode log e m) :
      Authorised V decode log (.send m)
  | nested {msgs : List DaoCore.CosmosMsg} {m : DaoCore.CosmosMsg}
      (h : Authorised V decode log (.send (.toSelf (.executeAdminMsgs msgs)))) (hm : m ∈ msgs) :
      Authorised V decode log (.send m)
  | voting {i : Nat} (h : Authorised V decode log (.send (.toSelf (.updateVotingModule i)))) :
      Authorised V decode log (.create .votingModuleUpdate i)
  | module {add : List Nat} {dis : List Addr} {i : Nat}
      (h : Authorised V decode log (.send (.toSelf (.updateProposalModules add dis)))) (hi : i ∈ add) :
      Authorised V decode log (.create .proposalModule i)
  | callback {e : Event S E C} {c : DaoCore.Event} {role : DaoCore.Role} {i : Nat} {r : DaoCore.Created}
      {m : DaoCore.CosmosMsg} (h : Authorised V decode log (.create role i)) (he : e ∈ log)
      (hc : coreEvent e = some c) (hr : DaoCore.created c = some (role, r)) (hm : m ∈ r.callbacks) :
      Authorised V decode log (.send m)

end Verif.Spec.WholeCondorcet
