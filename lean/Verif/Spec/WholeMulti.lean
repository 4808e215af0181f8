import Verif.Model.WholeMulti
import Verif.Spec.WholeDao
import Verif.Spec.SingleNearly
import Verif.Spec.Multiple
import Verif.Spec.MultipleBallots
/-!
# Specification vocabulary for a whole DAO with a multiple choice module
-/

namespace Verif.Spec.WholeMulti
open Verif Verif.Voting Verif.WholeMulti
open Verif.WholeDao (VotingModule)

variable {S E C O : Type}

/-- Asked without a height, the voting module answers with the total of the current height. -/
def AnswersNow (V : VotingModule S E C O) (N : TotalNow S) : Prop :=
  ∀ {s : S} {b : Block} {l : List (Ev S E C O)}, V.sys.Reach s b l → ∀ b', b.le b' → N s b' = V.total s b'.height

/-- Asked without a height, the voting module answers with what is held right now. -/
def AnswersNewest (V : VotingModule S E C O) (N : TotalNow S) : Prop := ∀ s b, N s b = V.totalWeight s

/-- An event makes a proposal. -/
def proposes (e : Event S E C) : Prop := ∃ g c m v z, e.call = .prop (.propose g c m v z)

/-- Whenever a proposal was made, the total asked for without a height was the total of the height of that block. -/
def TotalsOfHeight (V : VotingModule S E C O) (N : TotalNow S) (log : List (Event S E C)) : Prop :=
  ∀ e ∈ log, proposes e → N e.pre.vote e.env.block = V.total e.pre.vote e.env.block.height

/-- In the block of a proposal nobody calls the voting module before the proposal is made. -/
def Settled (b0 : Block) (log : List (Event S E C)) : Prop :=
  ∀ later e before, log = later ++ e :: before → proposes e → b0.height < e.env.block.height ∧
    ∀ e' ∈ before, (∃ ve c, e'.call = .vote ve c) → e'.env.block.height < e.env.block.height

/-- The calls of the proposal module in a history of the DAO. -/
def propLog (V : VotingModule S E C O) (N : TotalNow S) : List (Event S E C) → List Multiple.Event
  | [] => []
  | e :: rest =>
    match e.call, e.out.prop with
    | .prop c, some o => ⟨e.pre.prop, propEnv V N e.pre e.env, c, o, e.post.prop⟩ :: propLog V N rest
    | _, _ => propLog V N rest

/-- The summed power of the addresses in a list, for a height. -/
def powerOf (V : VotingModule S E C O) (s : S) (h : Nat) (l : List Addr) : Nat := (l.map (fun a => V.power s a h)).sum

/-- The power behind each of the first `n` options, added up. -/
def castSum (n : Nat) (f : Nat → Nat) : Nat := ((List.range n).map f).sum

/-- The members have decided for option `i` of a proposal. `voters j` are exactly the addresses whose last vote was
option `j`, with the powers the voting module has for the height at which the proposal was made. The power that voted
meets the quorum; option `i` is not the last one, "none of the above", and has more power behind it than each other
option; and voting is over or nobody can catch up with it. The minimum voting period is over, and the voting period too
if votes may be changed. `before` is what happened, `s` the voting module, `b` the block. -/
def Decided (V : VotingModule S E C O) (N : TotalNow S) (before : List (Event S E C)) (s : S) (b : Block) (id : Nat)
    (p : Multiple.Proposal) (i : Nat) : Prop :=
  (p.allowRevoting = true → p.expiration.isExpired b = true) ∧
  (∀ m, p.minVotingPeriod = some m → m.isExpired b = true) ∧ i + 1 < p.choices.length ∧
  ∃ voters : Nat → List Addr,
    (∀ j, (voters j).Nodup ∧ ∀ a, a ∈ voters j ↔ Multi.lastVote a id (propLog V N before) = some j) ∧
    Meets (castSum p.choices.length (fun j => powerOf V s p.startHeight (voters j))) (V.total s p.startHeight) p.quorum ∧
    (∀ j, j < p.choices.length → j ≠ i → powerOf V s p.startHeight (voters j) < powerOf V s p.startHeight (voters i)) ∧
    (p.expiration.isExpired b = true ∨ ∀ j, j < p.choices.length → j ≠ i →
      powerOf V s p.startHeight (voters j) + (V.total s p.startHeight -
        castSum p.choices.length (fun j => powerOf V s p.startHeight (voters j))) < powerOf V s p.startHeight (voters i))

/-- `Decided`, with the quorum met but for less than a billionth of a vote. -/
def NearlyDecided (V : VotingModule S E C O) (N : TotalNow S) (before : List (Event S E C)) (s : S) (b : Block) (id : Nat)
    (p : Multiple.Proposal) (i : Nat) : Prop :=
  (p.allowRevoting = true → p.expiration.isExpired b = true) ∧
  (∀ m, p.minVotingPeriod = some m → m.isExpired b = true) ∧ i + 1 < p.choices.length ∧
  ∃ voters : Nat → List Addr,
    (∀ j, (voters j).Nodup ∧ ∀ a, a ∈ voters j ↔ Multi.lastVote a id (propLog V N before) = some j) ∧
    NearlyMeets (castSum p.choices.length (fun j => powerOf V s p.startHeight (voters j)))
      (V.total s p.startHeight) p.quorum ∧
    (∀ j, j < p.choices.length → j ≠ i → powerOf V s p.startHeight (voters j) < powerOf V s p.startHeight (voters i)) ∧
    (p.expiration.isExpired b = true ∨ ∀ j, j < p.choices.length → j ≠ i →
      powerOf V s p.startHeight (voters j) + (V.total s p.startHeight -
        castSum p.choices.length (fun j => powerOf V s p.startHeight (voters j))) < powerOf V s p.startHeight (voters i))

/-- The DAO keeps its voting module and the proposal module keeps its DAO. -/
def Steady (log : List (Event S E C)) : Prop :=
  ∀ e ∈ log, e.pre.core.core.voting = some e.pre.voteAddr ∧ e.pre.prop.config.dao = e.pre.core.core.me

/-- An event executes proposal `id`. -/
def executesId (id : Nat) (e : Event S E C) : Bool :=
  match e.call with
  | .prop (.execute id' _) => decide (id' = id)
  | _ => false

/-- An event executes a proposal of the proposal module, and the DAO takes its messages. -/
def Executes (e : Event S E C) (id : Nat) (p : Multiple.Proposal) : Prop :=
  e.call = .prop (.execute id false) ∧ e.pre.prop.proposals.get id = some p

/-- In an event an executed proposal hands the DAO a message of the option the members have decided for.
The quorum is met but for less than a billionth of a vote, and exactly if it has at most nine decimals. -/
def ByProposal (V : VotingModule S E C O) (N : TotalNow S) (decode : Nat → DaoCore.CosmosMsg) (log : List (Event S E C))
    (e : Event S E C) (m : DaoCore.CosmosMsg) : Prop :=
  ∃ later before id p i c n, log = later ++ e :: before ∧ Executes e id p ∧ p.choices[i]? = some c ∧ n ∈ c.msgs ∧
    m = decode n ∧ (NineDec p.quorum → Decided V N before e.pre.vote e.env.block id p i) ∧
    NearlyDecided V N before e.pre.vote e.env.block id p i

/-- The event of the core alone, if it was called directly. -/
def coreEvent (e : Event S E C) : Option DaoCore.Event :=
  match e.call with
  | .core c => some ⟨e.pre.core, coreEnv e.env, c, e.out.core, e.post.core⟩
  | _ => none

/-- The DAO has no outside admin and no other enabled proposal module. -/
def Sole (log : List (Event S E C)) : Prop :=
  ∀ e ∈ log, e.pre.core.core.admin = e.pre.core.core.me ∧
    ∀ a, DaoCore.Enabled e.pre.core.core a → a = e.pre.propAddr

/-- What goes back to a decision of the members: the messages of an executed proposal, and what the DAO sends in turn
because it was told to by such a message: messages in an admin message to itself, the creation of modules, and the
callbacks of modules so created. -/
inductive Authorised (V : VotingModule S E C O) (N : TotalNow S) (decode : Nat → DaoCore.CosmosMsg)
    (log : List (Event S E C)) : DaoCore.Sub → Prop where
  | proposal {e : Event S E C} {m : DaoCore.CosmosMsg} (h : ByProposal V N decode log e m) :
      Authorised V N decode log (.send m)
  | nested {msgs : List DaoCore.CosmosMsg} {m : DaoCore.CosmosMsg}
      (h : Authorised V N decode log (.send (.toSelf (.executeAdminMsgs msgs)))) (hm : m ∈ msgs) :
      Authorised V N decode log (.send m)
  | voting {i : Nat} (h : Authorised V N decode log (.send (.toSelf (.updateVotingModule i)))) :
      Authorised V N decode log (.create .votingModuleUpdate i)
  | module {add : List Nat} {dis : List Addr} {i : Nat}
      (h : Authorised V N decode log (.send (.toSelf (.updateProposalModules add dis)))) (hi : i ∈ add) :
      Authorised V N decode log (.create .proposalModule i)
  | callback {e : Event S E C} {c : DaoCore.Event} {role : DaoCore.Role} {i : Nat} {r : DaoCore.Created}
      {m : DaoCore.CosmosMsg} (h : Authorised V N decode log (.create role i)) (he : e ∈ log)
      (hc : coreEvent e = some c) (hr : DaoCore.created c = some (role, r)) (hm : m ∈ r.callbacks) :
      Authorised V N decode log (.send m)

end Verif.Spec.WholeMulti
