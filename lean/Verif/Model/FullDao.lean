import Verif.Model.WholeCondorcet
import Verif.Model.WholeMulti
/-!
# A DAO with any number of proposal modules of any kind

One core contract, one voting module, and proposal modules which the DAO creates as time goes by: of dao-proposal-single,
dao-proposal-multiple and dao-proposal-condorcet, any number of each. A call of one of them is a step of
`Model/WholeDao`, `Model/WholeMulti` or `Model/WholeCondorcet` on the DAO as this module sees it.
-/

namespace Verif.FullDao
open Verif.WholeDao (VotingModule)
open Verif.WholeCondorcet (Now)

/-- A proposal module. -/
inductive Module where
  | single (s : Single.State)
  | multi (s : Multiple.State)
  | condorcet (s : Condorcet.State)

/-- The contracts of the DAO: core, proposal modules by address, voting module. -/
structure World (S : Type) where
  core : DaoCore.World
  mods : AMap Addr Module
  vote : S
  voteAddr : Addr

/-- What a transaction sees: the block, the sender, what other DAOs and other voting modules would answer, and the
queries of other contracts. -/
structure Env where
  block : Block
  sender : Addr
  power : Addr → Addr → Nat → Nat
  total : Addr → Nat → Nat
  powerNow : Addr → Addr → Nat
  totalNow : Addr → Nat
  active : Bool
  isCw20 : Addr → Bool
  isCw721 : Addr → Bool

/-- How a new proposal module is set up: the messages of the `instantiate` functions. -/
inductive Setup where
  | single (c : Single.Config) (i : Single.PreProposeInfo)
  | multi (c : Multiple.Config) (i : Multiple.PreProposeInfo)
  | condorcet (c : Condorcet.Config)

/-- Calls of the contracts, and the creation of a proposal module by the DAO. -/
inductive Call (E C : Type) where
  | core (m : DaoCore.Call)
  | vote (e : E) (c : C)
  | spawn (a : Addr) (s : Setup)
  | single (a : Addr) (c : Single.Call)
  | multi (a : Addr) (c : Multiple.Call)
  | condorcet (a : Addr) (c : Condorcet.Call)

/-- The response of a proposal module. -/
inductive Answer where
  | none
  | single (o : Single.Out)
  | multi (o : Multiple.Out)
  | condorcet (o : Condorcet.Out)

/-- What came of a call: the response of a proposal module, and what the DAO now has to send. -/
structure Out where
  answer : Answer
  core : List DaoCore.Sub

variable {S E C O : Type}

/-- What a transaction sees, for a module of dao-proposal-single. -/
def Env.single (e : Env) : WholeDao.Env := ⟨e.block, e.sender, e.power, e.total, e.active, e.isCw20, e.isCw721⟩

/-- What a transaction sees, for a module of dao-proposal-multiple. -/
def Env.multi (e : Env) : WholeMulti.Env := ⟨e.block, e.sender, e.power, e.totalNow, e.active, e.isCw20, e.isCw721⟩

/-- What a transaction sees, for a module of dao-proposal-condorcet. -/
def Env.condorcet (e : Env) : WholeCondorcet.Env := ⟨e.block, e.sender, e.power, e.powerNow, e.totalNow, e.isCw20, e.isCw721⟩

/-- What the DAO sees. -/
def coreEnv (e : Env) : DaoCore.Env := ⟨e.block, e.isCw20, e.isCw721⟩

/-- The DAO as its module of dao-proposal-single at `a` sees it. -/
def viewSingle (w : World S) (a : Addr) (s : Single.State) : WholeDao.World S := ⟨w.core, s, w.vote, a, w.voteAddr⟩

/-- The DAO as its module of dao-proposal-multiple at `a` sees it. -/
def viewMulti (w : World S) (a : Addr) (s : Multiple.State) : WholeMulti.World S := ⟨w.core, s, w.vote, a, w.voteAddr⟩

/-- The DAO as its module of dao-proposal-condorcet at `a` sees it. -/
def viewCondorcet (w : World S) (a : Addr) (s : Condorcet.State) : WholeCondorcet.World S :=
  ⟨w.core, s, w.vote, a, w.voteAddr⟩

/-- A new module: the DAO instantiates it in a block, so it is the sender and becomes the DAO of the module,
contracts/proposal/dao-proposal-single/src/contract.rs:47-92,
contracts/proposal/dao-proposal-multiple/src/contract.rs:44-89,
contracts/proposal/dao-proposal-condorcet/src/contract.rs:22-37. The queries are not used. -/
def create (me : Addr) (b : Block) : Setup → Res Module
  | .single c i => do
    let (s, _) ← Single.instantiate ⟨b, me, fun _ _ _ => 0, fun _ _ => 0, true⟩ c i
    .ok (.single s)
  | .multi c i => do
    let (s, _) ← Multiple.instantiate ⟨b, me, fun _ _ _ => 0, fun _ => 0, true⟩ c i
    .ok (.multi s)
  | .condorcet c => do
    let s ← Condorcet.instantiate ⟨b, me, fun _ _ _ => 0, fun _ _ => 0, fun _ => 0⟩ c
    .ok (.condorcet s)

/-- A call of the core by someone else than the proposal modules, whose calls are made when they execute proposals. -/
def notByModule (mods : AMap Addr Module) : DaoCore.Call → Bool
  | .call sender _ => (mods.get sender).isNone
  | .deliver _ => true

/-- The module of dao-proposal-single at an address. -/
def singleAt (w : World S) (a : Addr) : Res Single.State :=
  match w.mods.get a with
  | some (.single s) => .ok s
  | _ => .error .notFound

/-- The module of dao-proposal-multiple at an address. -/
def multiAt (w : World S) (a : Addr) : Res Multiple.State :=
  match w.mods.get a with
  | some (.multi s) => .ok s
  | _ => .error .notFound

/-- The module of dao-proposal-condorcet at an address. -/
def condorcetAt (w : World S) (a : Addr) : Res Condorcet.State :=
  match w.mods.get a with
  | some (.condorcet s) => .ok s
  | _ => .error .notFound

/-- A response, as a response of a module of dao-proposal-single. -/
def ofSingle : Option Single.Out → Answer
  | some o => .single o
  | none => .none

/-- A response, as a response of a module of dao-proposal-multiple. -/
def ofMulti : Option Multiple.Out → Answer
  | some o => .multi o
  | none => .none

/-- A response, as a response of a module of dao-proposal-condorcet. -/
def ofCondorcet : Option Condorcet.Out → Answer
  | some o => .condorcet o
  | none => .none

/-- A step of the DAO. A new contract has a new address. -/
def step (V : VotingModule S E C O) (N : Now S) (decode : Nat → DaoCore.CosmosMsg) (w : World S) (e : Env) :
    Call E C → Res (World S × Out)
  | .core m => do
    require (notByModule w.mods m) .invalid
    let (c, out) ← DaoCore.step w.core (coreEnv e) m
    .ok ({ w with core := c }, ⟨.none, out⟩)
  | .vote ve m => do
    require (decide (V.sys.block ve = e.block)) .invalid
    let (v, _) ← V.sys.step w.vote ve m
    .ok ({ w with vote := v }, ⟨.none, []⟩)
  | .spawn a s => do
    require (decide (a ≠ w.core.core.me)) .invalid
    require (w.mods.get a).isNone .invalid
    let m ← create w.core.core.me e.block s
    .ok ({ w with mods := w.mods.set a m }, ⟨.none, []⟩)
  | .single a c => do
    let s ← singleAt w a
    let (w', out) ← WholeDao.step V decode (viewSingle w a s) e.single (.prop c)
    .ok ({ w with core := w'.core, mods := w.mods.set a (.single w'.prop) }, ⟨ofSingle out.prop, out.core⟩)
  | .multi a c => do
    let s ← multiAt w a
    let (w', out) ← WholeMulti.step V N.total decode (viewMulti w a s) e.multi (.prop c)
    .ok ({ w with core := w'.core, mods := w.mods.set a (.multi w'.prop) }, ⟨ofMulti out.prop, out.core⟩)
  | .condorcet a c => do
    let s ← condorcetAt w a
    let (w', out) ← WholeCondorcet.step V N decode (viewCondorcet w a s) e.condorcet (.prop c)
    .ok ({ w with core := w'.core, mods := w.mods.set a (.condorcet w'.prop) }, ⟨ofCondorcet out.prop, out.core⟩)

/-- The beginning: core and voting module are in any states they can be in, and there is no proposal module yet. A new
DAO, which has still to create all its modules, is an example. -/
def Init (V : VotingModule S E C O) (b : Block) (w : World S) : Prop :=
  w.mods = [] ∧ (∃ b1 l, DaoCore.sys.Reach w.core b1 l ∧ b1.le b) ∧ (∃ b1 l, V.sys.Reach w.vote b1 l ∧ b1.le b)

/-- The system. -/
def sys (V : VotingModule S E C O) (N : Now S) (decode : Nat → DaoCore.CosmosMsg) : Sys (World S) Env (Call E C) Out where
  init := Init V
  block := Env.block
  step := step V N decode

/-- An event of a history. -/
abbrev Event (S E C : Type) := Ev (World S) Env (Call E C) Out

end Verif.FullDao
