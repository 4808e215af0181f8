import Verif.Model.WholeDao
import Verif.Spec.DaoCore
import Verif.Spec.Single
import Verif.Spec.SingleNearly
import Verif.Spec.SingleHistory
import Verif.Spec.SingleBallots
/-!
# Specification vocabulary for a whole DAO
-/

namespace Verif.Spec.WholeDao
open Verif Verif.Voting Verif.WholeDao

variable {S E C O : Type}

/-- What a DAO relies on in a voting module. -/
structure Lawful (V : VotingModule S E C O) : Prop where
  /-- the answer for a height is what was held before the first transaction at or above that height -/
  history : ∀ {s s' : S} {b b' : Block} {l l' : List (Ev S E C O)} {x : Nat}, V.sys.Reach s b l →
    V.sys.Run s b l' s' b' → b.height < x → (∀ e ∈ l', x ≤ (V.sys.block e.env).height) →
    (∀ a, V.power s' a x = V.weight s a) ∧ V.total s' x = V.totalWeight s
  /-- the answer for a height does not change any more from that height on -/
  stable : ∀ {s s' : S} {b b' : Block} {l l' : List (Ev S E C O)} {x : Nat}, V.sys.Reach s b l →
    V.sys.Run s b l' s' b' → (∀ e ∈ l', x ≤ (V.sys.block e.env).height) →
    (∀ a, V.power s' a x = V.power s a x) ∧ V.total s' x = V.total s x
  /-- the total is the sum of the powers of everybody -/
  sums : ∀ {s : S} {b : Block} {l : List (Ev S E C O)}, V.sys.Reach s b l → ∀ x, ∃ L : List Addr, L.Nodup ∧
    (∀ a, a ∉ L → V.power s a x = 0) ∧ V.total s x = (L.map (fun a => V.power s a x)).sum

/-- The calls of the proposal module in a history of the DAO. -/
def propLog (V : VotingModule S E C O) : List (Event S E C) → List Single.Event
  | [] => []
  | e :: rest =>
    match e.call, e.out.prop with
    | .prop c, some o => ⟨e.pre.prop, propEnv V e.pre e.env, c, o, e.post.prop⟩ :: propLog V rest
    | _, _ => propLog V rest

/-- The summed power of the addresses in a list, for a height. -/
def powerOf (V : VotingModule S E C O) (s : S) (h : Nat) (l : List Addr) : Nat := (l.map (fun a => V.power s a h)).sum

/-- The members have decided for a proposal: taking exactly the addresses whose last vote was yes, no and abstain, with
the powers the voting module has for the height at which the proposal was made, the tally meets the threshold of the
proposal; its minimum voting period is over, and its voting period too if votes may be changed. `before` is what
happened, `s` the voting module, `b` the block. -/
def Decided (V : VotingModule S E C O) (before : List (Event S E C)) (s : S) (b : Block) (id : Nat)
    (p : Single.Proposal) : Prop :=
  (p.allowRevoting = true → p.expiration.isExpired b = true) ∧
  (∀ m, p.minVotingPeriod = some m → m.isExpired b = true) ∧ ∃ yes no abstain : List Addr,
    (yes.Nodup ∧ ∀ a, a ∈ yes ↔ lastVote a id (propLog V before) = some .yes) ∧
    (no.Nodup ∧ ∀ a, a ∈ no ↔ lastVote a id (propLog V before) = some .no) ∧
    (abstain.Nodup ∧ ∀ a, a ∈ abstain ↔ lastVote a id (propLog V before) = some .abstain) ∧
    ShouldPass p.threshold (V.total s p.startHeight)
      ⟨powerOf V s p.startHeight yes, powerOf V s p.startHeight no, powerOf V s p.startHeight abstain⟩
      (p.expiration.isExpired b)

/-- `Decided`, with the percentages of the threshold met but for less than a billionth of a vote. -/
def NearlyDecided (V : VotingModule S E C O) (before : List (Event S E C)) (s : S) (b : Block) (id : Nat)
    (p : Single.Proposal) : Prop :=
  (p.allowRevoting = true → p.expiration.isExpired b = true) ∧
  (∀ m, p.minVotingPeriod = some m → m.isExpired b = true) ∧ ∃ yes no abstain : List Addr,
    (yes.Nodup ∧ ∀ a, a ∈ yes ↔ lastVote a id (propLog V before) = some .yes) ∧
    (no.Nodup ∧ ∀ a, a ∈ no ↔ lastVote a id (propLog V before) = some .no) ∧
    (abstain.Nodup ∧ ∀ a, a ∈ abstain ↔ lastVote a id (propLog V before) = some .abstain) ∧
    NearlyPasses p.threshold (V.total s p.startHeight)
      ⟨powerOf V s p.startHeight yes, powerOf V s p.startHeight no, powerOf V s p.startHeight abstain⟩
      (p.expiration.isExpired b)

/-- The DAO keeps its voting module and the proposal module keeps its DAO. -/
def Steady (log : List (Event S E C)) : Prop :=
  ∀ e ∈ log, e.pre.core.core.voting = some e.pre.voteAddr ∧ e.pre.prop.config.dao = e.pre.core.core.me

/-- An event executes proposal `id`. -/
def executesId (id : Nat) (e : Event S E C) : Bool :=
  match e.call with
  | .prop (.execute id' _) => decide (id' = id)
  | _ => false

/-- An event executes a proposal of the proposal module, and the DAO takes its messages. -/
def Executes (e : Event S E C) (id : Nat) (p : Single.Proposal) : Prop :=
  e.call = .prop (.execute id false) ∧ e.pre.prop.proposals.get id = some p

/-- In an event an executed, decided proposal hands the DAO a message. The threshold is met but for less than a
billionth of a vote, and exactly if its percentages have at most nine decimals. -/
def ByProposal (V : VotingModule S E C O) (decode : Nat → DaoCore.CosmosMsg) (log : List (Event S E C))
    (e : Event S E C) (m : DaoCore.CosmosMsg) : Prop :=
  ∃ later before id p n, log = later ++ e :: before ∧ Executes e id p ∧ n ∈ p.msgs ∧ m = decode n ∧
    (NineDecAll p.threshold → Decided V before e.pre.vote e.env.block id p) ∧
    NearlyDecided V before e.pre.vote e.env.block id p

/-- The event of the core alone, if it was called directly. -/
def coreEvent (e : Event S E C) : Option DaoCore.Event :=
  match e.call with
  | .core c => some ⟨e.pre.core, coreEnv e.env, c, e.out.core, e.post.core⟩
  | _ => none

/-- The DAO has no outside admin and no other enabled proposal module. -/
def Sole (log : List (Event S E C)) : Prop :=
  ∀ e ∈ log, e.pre.core.core.admin = e.pre.core.core.me ∧
    ∀ a, DaoCore.Enabled e.pre.core.core a → a = e.pre.propAddr

/-- What goes back to a decision of the members: the messages of an executed proposal, and what the DAO sends in turn
because it was told to by such a message: messages in an admin message to itself, the creation of modules, and the
callbacks of modules so created. -/
inductive Authorised (V : VotingModule S E C O) (decode : Nat → DaoCore.CosmosMsg) (log : List (Event S E C)) :
    DaoCore.Sub → Prop where
  | proposal {e : Event S E C} {m : DaoCore.CosmosMsg} (h : ByProposal V decode log e m) :
      Authorised V decode log (.send m)
  | nested {msgs : List DaoCore.CosmosMsg} {m : DaoCore.CosmosMsg}
      (h : Authorised V decode log (.send (.toSelf (.executeAdminMsgs msgs)))) (hm : m ∈ msgs) :
      Authorised V decode log (.send m)
  | voting {i : Nat} (h : Authorised V decode log (.send (.toSelf (.updateVotingModule i)))) :
      Authorised V decode log (.create .votingModuleUpdate i)
  | module {add : List Nat} {dis : List Addr} {i : Nat}
      (h : Authorised V decode log (.send (.toSelf (.updateProposalModules add dis)))) (hi : i ∈ add) :
      Authorised V decode log (.create .proposalModule i)
  | callback {e : Event S E C} {c : DaoCore.Event} {role : DaoCore.Role} {i : Nat} {r : DaoCore.Created}
      {m : DaoCore.CosmosMsg} (h : Authorised V decode log (.create role i)) (he : e ∈ log)
      (hc : coreEvent e = some c) (hr : DaoCore.created c = some (role, r)) (hm : m ∈ r.callbacks) :
      Authorised V decode log (.send m)

end Verif.Spec.WholeDao
