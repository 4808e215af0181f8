import Verif.Model.SwapDaos
import Verif.Spec.FullDao
import Verif.Spec.Treasury
import Verif.Spec.TokenSwap
/-!
# Specification vocabulary for DAOs that swap tokens
-/

namespace Verif.Spec.SwapDaos
open Verif Verif.SwapDaos
open Verif.WholeDao (VotingModule)
open Verif.WholeCondorcet (Now)
open Verif.FullDao (Env)
open Verif.Spec.FullDao (Authorised)

variable {I : Type} [DecidableEq I] [Fintype I] {T F D P : I → Type}

/-- What an event is for DAO `i`. -/
def daoEvent (i : I) (e : Event T F D) : Option (FullDao.Event (T i) (F i) (D i)) :=
  match e.call with
  | .dao j c => if h : j = i then some ⟨e.pre.dao i, e.env, h ▸ c, e.out.dao, e.post.dao i⟩ else none
  | .it _ => none
  | .pass j => if j = i then some ⟨e.pre.dao i, e.env, .core (.deliver ⟨0, []⟩), e.out.dao, e.post.dao i⟩ else none

/-- The history of DAO `i`. -/
def daoLog (i : I) (log : List (Event T F D)) : List (FullDao.Event (T i) (F i) (D i)) := log.filterMap (daoEvent i)

/-- What is done with coins and tokens in an event: a call of the swap or a payment. -/
def doing (r : I → Reading) (e : Event T F D) : Option TokenSwap.Call :=
  match e.call with
  | .dao _ _ => none
  | .it k => some k
  | .pass i => next (r i) (e.pre.dao i).core.stack

/-- What an event is for the swap and the balances. -/
def swapEvent (r : I → Reading) (e : Event T F D) : Option (Ev TokenSwap.World Block TokenSwap.Call (List TokenSwap.Pay)) :=
  (doing r e).map fun k => ⟨e.pre.swap, e.env.block, k, e.out.swap, e.post.swap⟩

/-- The history of the swap and the balances. -/
def swapLog (r : I → Reading) (log : List (Event T F D)) : TokenSwap.Log := log.filterMap (swapEvent r)

/-- The members of DAO `i`, whose history is `log`, decided on this, in any of its proposal modules; or it is what the DAO had to
send when it was founded, `first`. -/
def Decided (U : ∀ i, VotingModule (T i) (F i) (D i) (P i)) (decode : I → Nat → DaoCore.CosmosMsg) (r : I → Reading) (i : I)
    (first : List DaoCore.Sub) (log : List (FullDao.Event (T i) (F i) (D i))) (k : TokenSwap.Call) : Prop :=
  ∃ n, r i n = some k ∧ Authorised (U i) (decode i) first log (.send (.other n))

/-- What an address has of a token. -/
def has (w : World T) (a : Addr) (t : TokenSwap.Token) : Nat := getD0 w.swap.ledger (t, a)

/-- What an address pays to others, not to the swap, by one call. -/
def pays (a : Addr) (t : TokenSwap.Token) : TokenSwap.Call → Nat
  | .transfer t' x _ n => if x = a ∧ t' = t then n else 0
  | _ => 0

/-- What an address gets from others, not from the swap, by one call. -/
def gets (a : Addr) (t : TokenSwap.Token) : TokenSwap.Call → Nat
  | .transfer t' _ x n => if x = a ∧ t' = t then n else 0
  | _ => 0

/-- All that an address paid to others in a history. -/
def spent (a : Addr) (t : TokenSwap.Token) (l : TokenSwap.Log) : Nat := (l.map fun e => pays a t e.call).sum

/-- All that an address got from others in a history. -/
def earned (a : Addr) (t : TokenSwap.Token) (l : TokenSwap.Log) : Nat := (l.map fun e => gets a t e.call).sum

/-- The call provides the promise of a party of the swap. -/
def provides (p : TokenSwap.Party) : TokenSwap.Call :=
  match p.token with
  | .native d => .fund p.address [(d, p.amount)]
  | .cw20 c => .send c p.address p.amount

/-- A history in question. It starts in `w0` with a new swap; each DAO began in `u i` and its history until then is `d i`. The
DAOs keep their voting modules and have no outside admins, and their modules are those they created, see `Steady` and `Governed`;
totals asked for without a height are those of the height, see `TotalsOfHeight`. -/
structure History (U : ∀ i, VotingModule (T i) (F i) (D i) (P i)) (N : ∀ i, Now (T i)) (decode : I → Nat → DaoCore.CosmosMsg)
    (r : I → Reading) (u : ∀ i, FullDao.World (T i)) (w0 w : World T) (b0 b : Block)
    (d : ∀ i, List (FullDao.Event (T i) (F i) (D i))) (log : List (Event T F D)) : Prop where
  swap : TokenSwap.sys.init b0 w0.swap
  apart : ∀ i j, i ≠ j → (w0.dao i).core.core.me ≠ (w0.dao j).core.core.me
  daos : ∀ i, ∃ bu b1, FullDao.Init (U i) bu (u i) ∧
    (FullDao.sys (U i) (N i) (decode i)).Run (u i) bu (d i) (w0.dao i) b1 ∧ b1.le b0
  run : (sys U N decode r).Run w0 b0 log w b
  steady : ∀ i, FullDao.Steady (daoLog i log ++ d i)
  governed : ∀ i, FullDao.Governed (daoLog i log ++ d i)
  totals : ∀ i, FullDao.TotalsOfHeight (U i) (N i) (daoLog i log ++ d i)

end Verif.Spec.SwapDaos
