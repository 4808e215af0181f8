import Verif.Model.Treasury
import Verif.Spec.FullDao
/-!
# Specification vocabulary for the treasury of a DAO
-/

namespace Verif.Spec.Treasury
open Verif Verif.Treasury
open Verif.WholeDao (VotingModule)
open Verif.WholeCondorcet (Now)
open Verif.FullDao (Env)
open Verif.Spec.FullDao (Authorised)

variable {T F D P : Type}

/-- How much of a token leaves the account of `a` when `who` does this. -/
def leaves (a : Addr) (t : Token) (who : Addr) : Op → Nat
  | .send t' _ n => if who = a ∧ t' = t then n else 0
  | .burn t' n => if who = a ∧ t' = t then n else 0
  | .sendFrom c holder _ n => if holder = a ∧ .cw20 c = t then n else 0
  | .burnFrom c holder n => if holder = a ∧ .cw20 c = t then n else 0
  | .increase _ _ _ _ => 0
  | .decrease _ _ _ _ => 0

/-- How much of a token comes into the account of `a` by this. -/
def arrives (a : Addr) (t : Token) : Op → Nat
  | .send t' dest n => if dest = a ∧ t' = t then n else 0
  | .sendFrom c _ dest n => if dest = a ∧ .cw20 c = t then n else 0
  | _ => 0

/-- How much more of cw20 token `c` the spender may take. -/
def grants (c spender : Addr) : Op → Nat
  | .increase c' s n _ => if c' = c ∧ s = spender then n else 0
  | _ => 0

/-- What an event has the DAO do with coins and tokens. -/
def doings (r : Reading) (e : Event T F D) : List Op :=
  match e.call with
  | .dao c => due r e.pre.dao.core.stack c
  | _ => []

/-- What the DAO pays in an event, of a token. -/
def paid (r : Reading) (t : Token) (e : Event T F D) : Nat :=
  ((doings r e).map (leaves e.pre.dao.core.core.me t e.pre.dao.core.core.me)).sum

/-- What the DAO allows a spender to take in an event, of a cw20 token. -/
def allowed (r : Reading) (c spender : Addr) (e : Event T F D) : Nat := ((doings r e).map (grants c spender)).sum

/-- What somebody else takes from the DAO in an event, of a token. -/
def taken (t : Token) (e : Event T F D) : Nat :=
  match e.call with
  | .other who x => leaves e.pre.dao.core.core.me t who x
  | _ => 0

/-- The same, if it is this spender. -/
def takenBy (spender : Addr) (t : Token) (e : Event T F D) : Nat :=
  match e.call with
  | .other who x => if who = spender then leaves e.pre.dao.core.core.me t who x else 0
  | _ => 0

/-- What the DAO receives in an event, of a token. -/
def received (r : Reading) (t : Token) (e : Event T F D) : Nat :=
  match e.call with
  | .dao c => ((due r e.pre.dao.core.stack c).map (arrives e.pre.dao.core.core.me t)).sum
  | .other _ x => arrives e.pre.dao.core.core.me t x
  | .issue t' dest n => if dest = e.pre.dao.core.core.me ∧ t' = t then n else 0

/-- The sum over a history. -/
def over (f : Event T F D → Nat) (log : List (Event T F D)) : Nat := (log.map f).sum

/-- What an address has of a token. -/
def has (w : World T) (a : Addr) (t : Token) : Nat := getD0 w.chain.bal (t, a)

/-- What a spender may still take of a cw20 token from the account of the DAO. -/
def mayTake (w : World T) (c spender : Addr) : Nat :=
  match w.chain.allow.get (c, w.dao.core.core.me, spender) with
  | some a => a.amount
  | none => 0

/-- What an event is for the DAO. -/
def daoEvent (e : Event T F D) : Option (FullDao.Event T F D) :=
  match e.call with
  | .dao c => some ⟨e.pre.dao, e.env, c, e.out, e.post.dao⟩
  | _ => none

/-- The history of the DAO. -/
def daoLog (log : List (Event T F D)) : List (FullDao.Event T F D) := log.filterMap daoEvent

/-- A history in question, from the founding of the DAO. The DAO keeps its voting module and has no outside admin, and its
modules are those it created, see `Steady` and `Governed`; totals asked for without a height are those of the height, see
`TotalsOfHeight`. -/
structure History (U : VotingModule T F D P) (N : Now T) (decode : Nat → DaoCore.CosmosMsg) (r : Reading)
    (w0 w : World T) (b0 b : Block) (log : List (Event T F D)) : Prop where
  init : (sys U N decode r).init b0 w0
  run : (sys U N decode r).Run w0 b0 log w b
  steady : FullDao.Steady (daoLog log)
  governed : FullDao.Governed (daoLog log)
  totals : FullDao.TotalsOfHeight U N (daoLog log)

/-- The members of the DAO decided on this use of coins and tokens, in any of its proposal modules, or it was part of the
founding: it is what a message that goes back to a decision, or a module created because of one, costs. -/
def Decided (U : VotingModule T F D P) (decode : Nat → DaoCore.CosmosMsg) (r : Reading) (first : List DaoCore.Sub)
    (log : List (FullDao.Event T F D)) (x : Op) : Prop :=
  (∃ n, x ∈ r.ops n ∧ Authorised U decode first log (.send (.other n))) ∨
  ∃ role i d n dest, (d, n) ∈ r.funds i ∧ x = .send (.native d) dest n ∧ Authorised U decode first log (.create role i)

/-- In one of the proposal modules the members have decided that these messages be sent, and `e.sender` may now have this carried
out by the call. The module belongs to the DAO, is enabled and asks the voting module of the DAO; the DAO is not paused; nobody
may veto the proposal. -/
inductive Resolved (V : VotingModule T F D P) (w : FullDao.World T) (log : List (FullDao.Event T F D)) (e : Env)
    (msgs : List Nat) : FullDao.Call F D → Prop where
  | single {a : Addr} {s : Single.State} {id : Nat} {p : Single.Proposal} (module : w.mods.get a = some (.single s))
      (now : w.core.core.voting = some w.voteAddr ∧ s.config.dao = w.core.core.me)
      (proposal : s.proposals.get id = some p) (waits : p.status = .opened ∨ p.status = .passed) (veto : p.veto = none)
      (decided : FullDao.DecidedSingle V (fun x => FullDao.lastSingle a id x log) w.vote e.block p)
      (member : s.config.onlyMembersExecute = true → V.power w.vote e.sender p.startHeight ≠ 0)
      (runs : DaoCore.isPaused w.core.core e.block = false) (enabled : DaoCore.Enabled w.core.core a) (same : p.msgs = msgs) :
      Resolved V w log e msgs (.single a (.execute id false))
  | multi {a : Addr} {s : Multiple.State} {id i : Nat} {p : Multiple.Proposal} (module : w.mods.get a = some (.multi s))
      (now : w.core.core.voting = some w.voteAddr ∧ s.config.dao = w.core.core.me)
      (proposal : s.proposals.get id = some p) (waits : p.status = .opened ∨ p.status = .passed) (veto : p.veto = none)
      (decided : FullDao.DecidedMulti V (fun x => FullDao.lastMulti a id x log) w.vote e.block p i)
      (member : s.config.onlyMembersExecute = true → V.power w.vote e.sender p.startHeight ≠ 0)
      (runs : DaoCore.isPaused w.core.core e.block = false) (enabled : DaoCore.Enabled w.core.core a)
      (same : p.choices[i]?.map (fun c => c.msgs) = some msgs) : Resolved V w log e msgs (.multi a (.execute id false))
  | condorcet {a : Addr} {s : Condorcet.State} {id i : Nat} {p : Condorcet.Proposal} {t : Condorcet.Tally}
      (module : w.mods.get a = some (.condorcet s)) (now : w.core.core.voting = some w.voteAddr)
      (proposal : s.proposals.get id = some p) (tally : s.tallies.get id = some t) (waits : p.lastStatus = .opened)
      (decided : FullDao.DecidedCondorcet V (FullDao.rankings a id log) w.vote e.block p t i)
      (member : V.power w.vote e.sender t.startHeight ≠ 0)
      (runs : DaoCore.isPaused w.core.core e.block = false) (enabled : DaoCore.Enabled w.core.core a)
      (same : p.choices[i]? = some msgs) : Resolved V w log e msgs (.condorcet a (.execute id false))

/-- Payments of one token each: to whom and how much. -/
def payments (t : Token) (l : List (Addr × Nat)) : List Op := l.map (fun x => .send t x.1 x.2)

/-- How much `q` gets by payments. -/
def gets (q : Addr) (l : List (Addr × Nat)) : Nat := (l.map (fun x => if x.1 = q then x.2 else 0)).sum

/-- How much is paid in all. -/
def sumOf (l : List (Addr × Nat)) : Nat := (l.map (fun x => x.2)).sum

end Verif.Spec.Treasury
