import Verif.Model.FullDao
import Verif.Spec.WholeCondorcet
import Verif.Spec.WholeMulti
/-!
# Specification vocabulary for a DAO with any number of proposal modules
-/

namespace Verif.Spec.FullDao
open Verif Verif.Voting Verif.FullDao
open Verif.WholeDao (VotingModule)
open Verif.WholeCondorcet (Now)
open Verif.Spec.WholeDao (powerOf)
open Verif.Spec.WholeMulti (castSum)
open Verif.Spec.WholeCondorcet (ballots)
open Verif.Spec.Condorcet (castPower CondorcetWinner Allowed)

variable {S E C O : Type}

/-- A call goes to the module at an address, or creates it. -/
def touches (a : Addr) : Call E C → Bool
  | .core _ => false
  | .vote _ _ => false
  | .spawn a' _ => decide (a' = a)
  | .single a' _ => decide (a' = a)
  | .multi a' _ => decide (a' = a)
  | .condorcet a' _ => decide (a' = a)

/-- The ballot an event casts in the module of dao-proposal-single at `a`: by whom, on which proposal, for what. A
proposal may come with a vote of its proposer, whom a pre-propose module names; the new proposal has the next number. -/
def singleBallot (a : Addr) (e : Event S E C) : Option (Addr × Nat × Voting.Vote) :=
  match e.call, e.pre.mods.get a with
  | .single a' (.vote id v _), some (.single _) => if a' = a then some (e.env.sender, id, v) else none
  | .single a' (.propose g _ _ (some (v, _)) _), some (.single s) =>
    if a' = a then some (g.getD e.env.sender, s.count + 1, v) else none
  | _, _ => none

/-- The last vote of an address on a proposal of the module of dao-proposal-single at `a` (newest event first). -/
def lastSingle (a : Addr) (id : Nat) (voter : Addr) : List (Event S E C) → Option Voting.Vote
  | [] => none
  | e :: rest =>
    match singleBallot a e with
    | some (voter', id', v) => if voter' = voter ∧ id' = id then some v else lastSingle a id voter rest
    | none => lastSingle a id voter rest

/-- The ballot an event casts in the module of dao-proposal-multiple at `a`. -/
def multiBallot (a : Addr) (e : Event S E C) : Option (Addr × Nat × Nat) :=
  match e.call, e.pre.mods.get a with
  | .multi a' (.vote id v _), some (.multi _) => if a' = a then some (e.env.sender, id, v) else none
  | .multi a' (.propose g _ _ (some (v, _)) _), some (.multi s) =>
    if a' = a then some (g.getD e.env.sender, s.count + 1, v) else none
  | _, _ => none

/-- The last vote of an address on a proposal of the module of dao-proposal-multiple at `a`. -/
def lastMulti (a : Addr) (id : Nat) (voter : Addr) : List (Event S E C) → Option Nat
  | [] => none
  | e :: rest =>
    match multiBallot a e with
    | some (voter', id', v) => if voter' = voter ∧ id' = id then some v else lastMulti a id voter rest
    | none => lastMulti a id voter rest

/-- The votes on a proposal of the module of dao-proposal-condorcet at `a`: who ranked the choices, and how; oldest
first. -/
def rankings (a : Addr) (id : Nat) : List (Event S E C) → List (Addr × List Nat)
  | [] => []
  | e :: rest =>
    match e.call with
    | .condorcet a' (.vote i r) => rankings a id rest ++ if a' = a ∧ i = id then [(e.env.sender, r)] else []
    | _ => rankings a id rest

/-- The members have decided for a proposal of dao-proposal-single: taking exactly the addresses whose last vote was yes,
no and abstain, with the powers the voting module has for the height at which the proposal was made, the tally meets the
threshold of the proposal; its minimum voting period is over, and its voting period too if votes may be changed. `last`
says how everybody voted last, `s` is the voting module, `b` the block. -/
def DecidedSingle (V : VotingModule S E C O) (last : Addr → Option Voting.Vote) (s : S) (b : Block)
    (p : Single.Proposal) : Prop :=
  (p.allowRevoting = true → p.expiration.isExpired b = true) ∧
  (∀ m, p.minVotingPeriod = some m → m.isExpired b = true) ∧ ∃ yes no abstain : List Addr,
    (yes.Nodup ∧ ∀ a, a ∈ yes ↔ last a = some .yes) ∧
    (no.Nodup ∧ ∀ a, a ∈ no ↔ last a = some .no) ∧
    (abstain.Nodup ∧ ∀ a, a ∈ abstain ↔ last a = some .abstain) ∧
    ShouldPass p.threshold (V.total s p.startHeight)
      ⟨powerOf V s p.startHeight yes, powerOf V s p.startHeight no, powerOf V s p.startHeight abstain⟩
      (p.expiration.isExpired b)

/-- The members have decided for option `i` of a proposal of dao-proposal-multiple. `voters j` are exactly the addresses
whose last vote was option `j`, with the powers the voting module has for the height at which the proposal was made. The
power that voted meets the quorum; option `i` is not the last one, "none of the above", and has more power behind it than
each other option; and voting is over or nobody can catch up with it. The minimum voting period is over, and the voting
period too if votes may be changed. -/
def DecidedMulti (V : VotingModule S E C O) (last : Addr → Option Nat) (s : S) (b : Block)
    (p : Multiple.Proposal) (i : Nat) : Prop :=
  (p.allowRevoting = true → p.expiration.isExpired b = true) ∧
  (∀ m, p.minVotingPeriod = some m → m.isExpired b = true) ∧ i + 1 < p.choices.length ∧
  ∃ voters : Nat → List Addr,
    (∀ j, (voters j).Nodup ∧ ∀ a, a ∈ voters j ↔ last a = some j) ∧
    Meets (castSum p.choices.length (fun j => powerOf V s p.startHeight (voters j))) (V.total s p.startHeight) p.quorum ∧
    (∀ j, j < p.choices.length → j ≠ i → powerOf V s p.startHeight (voters j) < powerOf V s p.startHeight (voters i)) ∧
    (p.expiration.isExpired b = true ∨ ∀ j, j < p.choices.length → j ≠ i →
      powerOf V s p.startHeight (voters j) + (V.total s p.startHeight -
        castSum p.choices.length (fun j => powerOf V s p.startHeight (voters j))) < powerOf V s p.startHeight (voters i))

/-- The members have decided for choice `i` of a proposal of dao-proposal-condorcet. Everybody has voted at most once.
With the powers the voting module has for the height at which the proposal was made (`t.startHeight`): the power that
voted meets the quorum; and choice `i` is preferred to each other choice by more power than prefers the other, now if
voting is over, and otherwise whatever those who have not voted yet may still do. The minimum voting period is over. -/
def DecidedCondorcet (V : VotingModule S E C O) (votes : List (Addr × List Nat)) (s : S) (b : Block)
    (p : Condorcet.Proposal) (t : Condorcet.Tally) (i : Nat) : Prop :=
  (∀ m, p.minVotingPeriod = some m → m.isExpired b = true) ∧
  (votes.map Prod.fst).Nodup ∧
  Meets (castPower (ballots V s t.startHeight votes)) (V.total s t.startHeight) p.quorum ∧
  if t.expiration.isExpired b then CondorcetWinner p.choices.length (ballots V s t.startHeight votes) i
  else ∀ later, Allowed p.choices.length
      (V.total s t.startHeight - castPower (ballots V s t.startHeight votes)) later →
    CondorcetWinner p.choices.length (ballots V s t.startHeight votes ++ later) i

/-- `DecidedSingle`, with each percentage of the threshold met but for less than a billionth of a vote. -/
def NearlySingle (V : VotingModule S E C O) (last : Addr → Option Voting.Vote) (s : S) (b : Block)
    (p : Single.Proposal) : Prop :=
  (p.allowRevoting = true → p.expiration.isExpired b = true) ∧
  (∀ m, p.minVotingPeriod = some m → m.isExpired b = true) ∧ ∃ yes no abstain : List Addr,
    (yes.Nodup ∧ ∀ a, a ∈ yes ↔ last a = some .yes) ∧
    (no.Nodup ∧ ∀ a, a ∈ no ↔ last a = some .no) ∧
    (abstain.Nodup ∧ ∀ a, a ∈ abstain ↔ last a = some .abstain) ∧
    NearlyPasses p.threshold (V.total s p.startHeight)
      ⟨powerOf V s p.startHeight yes, powerOf V s p.startHeight no, powerOf V s p.startHeight abstain⟩
      (p.expiration.isExpired b)

/-- `DecidedMulti`, with the quorum met but for less than a billionth of a vote. -/
def NearlyMulti (V : VotingModule S E C O) (last : Addr → Option Nat) (s : S) (b : Block)
    (p : Multiple.Proposal) (i : Nat) : Prop :=
  (p.allowRevoting = true → p.expiration.isExpired b = true) ∧
  (∀ m, p.minVotingPeriod = some m → m.isExpired b = true) ∧ i + 1 < p.choices.length ∧
  ∃ voters : Nat → List Addr,
    (∀ j, (voters j).Nodup ∧ ∀ a, a ∈ voters j ↔ last a = some j) ∧
    NearlyMeets (castSum p.choices.length (fun j => powerOf V s p.startHeight (voters j))) (V.total s p.startHeight) p.quorum ∧
    (∀ j, j < p.choices.length → j ≠ i → powerOf V s p.startHeight (voters j) < powerOf V s p.startHeight (voters i)) ∧
    (p.expiration.isExpired b = true ∨ ∀ j, j < p.choices.length → j ≠ i →
      powerOf V s p.startHeight (voters j) + (V.total s p.startHeight -
        castSum p.choices.length (fun j => powerOf V s p.startHeight (voters j))) < powerOf V s p.startHeight (voters i))

/-- `DecidedCondorcet`, with the quorum met but for less than a billionth of a vote. -/
def NearlyCondorcet (V : VotingModule S E C O) (votes : List (Addr × List Nat)) (s : S) (b : Block)
    (p : Condorcet.Proposal) (t : Condorcet.Tally) (i : Nat) : Prop :=
  (∀ m, p.minVotingPeriod = some m → m.isExpired b = true) ∧
  (votes.map Prod.fst).Nodup ∧
  NearlyMeets (castPower (ballots V s t.startHeight votes)) (V.total s t.startHeight) p.quorum ∧
  if t.expiration.isExpired b then CondorcetWinner p.choices.length (ballots V s t.startHeight votes) i
  else ∀ later, Allowed p.choices.length
      (V.total s t.startHeight - castPower (ballots V s t.startHeight votes)) later →
    CondorcetWinner p.choices.length (ballots V s t.startHeight votes ++ later) i

/-- The module keeps the DAO it was created by. -/
def KeepsDao (me : Addr) : Module → Prop
  | .single s => s.config.dao = me
  | .multi s => s.config.dao = me
  | .condorcet _ => True

/-- From the creation of its first proposal module on the DAO keeps its voting module, and the proposal modules keep
their DAO. -/
def Steady (log : List (Event S E C)) : Prop :=
  ∀ e ∈ log, ∀ a m, e.pre.mods.get a = some m →
    e.pre.core.core.voting = some e.pre.voteAddr ∧ KeepsDao e.pre.core.core.me m

/-- An event makes a proposal in a module that asks for the total power without a height. -/
def proposes (e : Event S E C) : Prop :=
  (∃ a g c m v z, e.call = .multi a (.propose g c m v z)) ∨ ∃ a c, e.call = .condorcet a (.propose c)

/-- Whenever such a proposal was made, the total asked for without a height was the total of the height of that block. -/
def TotalsOfHeight (V : VotingModule S E C O) (N : Now S) (log : List (Event S E C)) : Prop :=
  ∀ e ∈ log, proposes e → N.total e.pre.vote e.env.block = V.total e.pre.vote e.env.block.height

/-- In the block of such a proposal nobody calls the voting module before the proposal is made. -/
def Settled (b0 : Block) (log : List (Event S E C)) : Prop :=
  ∀ later e before, log = later ++ e :: before → proposes e → b0.height < e.env.block.height ∧
    ∀ e' ∈ before, (∃ ve c, e'.call = .vote ve c) → e'.env.block.height < e.env.block.height

/-- An event executes proposal `id` of the module at `a`. -/
def executes (a : Addr) (id : Nat) (e : Event S E C) : Bool :=
  match e.call with
  | .single a' (.execute id' _) => decide (a' = a ∧ id' = id)
  | .multi a' (.execute id' _) => decide (a' = a ∧ id' = id)
  | .condorcet a' (.execute id' _) => decide (a' = a ∧ id' = id)
  | _ => false

/-- An event executes proposal `id` of the module at `a`, and the members had decided that these messages be sent.
The threshold or quorum is met but for less than a billionth of a vote, and exactly if it has at most nine decimals.
`before` is what happened before the event. -/
inductive Chosen (V : VotingModule S E C O) (before : List (Event S E C)) (e : Event S E C) :
    Addr → Nat → List Nat → Prop where
  | single {a : Addr} {id : Nat} {f : Bool} {s : Single.State} {p : Single.Proposal}
      (hc : e.call = .single a (.execute id f)) (hs : e.pre.mods.get a = some (.single s))
      (hp : s.proposals.get id = some p)
      (hd : NineDecAll p.threshold → DecidedSingle V (fun x => lastSingle a id x before) e.pre.vote e.env.block p)
      (hn : NearlySingle V (fun x => lastSingle a id x before) e.pre.vote e.env.block p) :
      Chosen V before e a id p.msgs
  | multi {a : Addr} {id i : Nat} {f : Bool} {s : Multiple.State} {p : Multiple.Proposal} {c : Multiple.Choice}
      (hc : e.call = .multi a (.execute id f)) (hs : e.pre.mods.get a = some (.multi s))
      (hp : s.proposals.get id = some p) (hi : p.choices[i]? = some c)
      (hd : NineDec p.quorum → DecidedMulti V (fun x => lastMulti a id x before) e.pre.vote e.env.block p i)
      (hn : NearlyMulti V (fun x => lastMulti a id x before) e.pre.vote e.env.block p i) :
      Chosen V before e a id c.msgs
  | condorcet {a : Addr} {id i : Nat} {f : Bool} {s : Condorcet.State} {p : Condorcet.Proposal} {t : Condorcet.Tally}
      {msgs : List Nat} (hc : e.call = .condorcet a (.execute id f))
      (hs : e.pre.mods.get a = some (.condorcet s)) (hp : s.proposals.get id = some p) (ht : s.tallies.get id = some t)
      (hi : p.choices[i]? = some msgs)
      (hd : NineDec p.quorum → DecidedCondorcet V (rankings a id before) e.pre.vote e.env.block p t i)
      (hn : NearlyCondorcet V (rankings a id before) e.pre.vote e.env.block p t i) :
      Chosen V before e a id msgs

/-- The event of the core alone, if it was called directly. -/
def coreEvent (e : Event S E C) : Option DaoCore.Event :=
  match e.call with
  | .core c => some ⟨e.pre.core, coreEnv e.env, c, e.out.core, e.post.core⟩
  | _ => none

/-- The DAO has no outside admin, and all its enabled proposal modules are among those it created. -/
def Governed (log : List (Event S E C)) : Prop :=
  ∀ e ∈ log, e.pre.core.core.admin = e.pre.core.core.me ∧
    ∀ a, DaoCore.Enabled e.pre.core.core a → ∃ m, e.pre.mods.get a = some m

/-- What goes back to a decision of the members or to the founding of the DAO: what the DAO had to send in the beginning
(`first`), the messages of an executed proposal, and what the DAO sends in turn because it was told to by such a message:
messages in an admin message to itself, the creation of modules, and the callbacks of modules so created. -/
inductive Authorised (V : VotingModule S E C O) (decode : Nat → DaoCore.CosmosMsg) (first : List DaoCore.Sub)
    (log : List (Event S E C)) : DaoCore.Sub → Prop where
  | founding {d : DaoCore.Sub} (h : d ∈ first) : Authorised V decode first log d
  | proposal {later before : List (Event S E C)} {e : Event S E C} {a : Addr} {id : Nat} {msgs : List Nat}
      {n : Nat} (hl : log = later ++ e :: before) (h : Chosen V before e a id msgs) (ha : DaoCore.Enabled e.pre.core.core a)
      (hn : n ∈ msgs) : Authorised V decode first log (.send (decode n))
  | nested {msgs : List DaoCore.CosmosMsg} {m : DaoCore.CosmosMsg}
      (h : Authorised V decode first log (.send (.toSelf (.executeAdminMsgs msgs)))) (hm : m ∈ msgs) :
      Authorised V decode first log (.send m)
  | voting {i : Nat} (h : Authorised V decode first log (.send (.toSelf (.updateVotingModule i)))) :
      Authorised V decode first log (.create .votingModuleUpdate i)
  | module {add : List Nat} {dis : List Addr} {i : Nat}
      (h : Authorised V decode first log (.send (.toSelf (.updateProposalModules add dis)))) (hi : i ∈ add) :
      Authorised V decode first log (.create .proposalModule i)
  | callback {e : Event S E C} {c : DaoCore.Event} {role : DaoCore.Role} {i : Nat} {r : DaoCore.Created}
      {m : DaoCore.CosmosMsg} (h : Authorised V decode first log (.create role i)) (he : e ∈ log)
      (hc : coreEvent e = some c) (hr : DaoCore.created c = some (role, r)) (hm : m ∈ r.callbacks) :
      Authorised V decode first log (.send m)

end Verif.Spec.FullDao
