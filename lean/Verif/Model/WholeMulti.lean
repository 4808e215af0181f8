import Verif.Model.Multiple
import Verif.Model.WholeDao
/-!
# A whole DAO with a multiple choice module

As `Model/WholeDao`, with dao-proposal-multiple in the place of dao-proposal-single. The difference in the wires: this
module asks for the total power without naming a height.
-/

namespace Verif.WholeMulti
open Verif.WholeDao (VotingModule)

/-- What a voting module answers to `TotalPowerAtHeight` without a height, in a block. -/
abbrev TotalNow (S : Type) := S → Block → Nat

/-- The contracts of the DAO, and the addresses of the proposal module and the voting module. -/
structure World (S : Type) where
  core : DaoCore.World
  prop : Multiple.State
  vote : S
  propAddr : Addr
  voteAddr : Addr

/-- What a transaction sees: the block, the sender, what other DAOs and other voting modules would answer, and the
queries of other contracts. -/
structure Env where
  block : Block
  sender : Addr
  power : Addr → Addr → Nat → Nat
  totalNow : Addr → Nat
  active : Bool
  isCw20 : Addr → Bool
  isCw721 : Addr → Bool

/-- Calls of the three contracts. A call of the voting module comes with what it sees. -/
inductive Call (E C : Type) where
  | core (m : DaoCore.Call)
  | prop (c : Multiple.Call)
  | vote (e : E) (c : C)

/-- What came of a call: the response of the proposal module, if it was called, and what the DAO now has to send. -/
structure Out where
  prop : Option Multiple.Out
  core : List DaoCore.Sub

variable {S E C O : Type}

/-- The DAO asked has this voting module. -/
def Wired (w : World S) (dao : Addr) : Prop := dao = w.core.core.me ∧ w.core.core.voting = some w.voteAddr

instance (w : World S) (dao : Addr) : Decidable (Wired w dao) := inferInstanceAs (Decidable (_ ∧ _))

/-- What the proposal module sees: `query_voting_power_at_height` and `query_total_power_at_height` of the DAO,
contracts/dao-dao-core/src/contract.rs:719-740, pass the question on to the voting module. -/
def propEnv (V : VotingModule S E C O) (N : TotalNow S) (w : World S) (e : Env) : Multiple.Env where
  block := e.block
  sender := e.sender
  power := fun d a h => if Wired w d then V.power w.vote a h else e.power d a h
  totalNow := fun d => if Wired w d then N w.vote e.block else e.totalNow d
  active := e.active

/-- What the DAO sees. -/
def coreEnv (e : Env) : DaoCore.Env := ⟨e.block, e.isCw20, e.isCw721⟩

/-- The fate of the message of `execute`, see `Multiple.Call`: if it fails the DAO is as before. -/
def daoFails : Multiple.Call → Bool
  | .execute _ f => f
  | _ => false

/-- The submessages of the proposal module reach the DAO: `ExecuteProposalHook`,
contracts/proposal/dao-proposal-multiple/src/contract.rs:536-562, is a call by the proposal module; everything else is for
others. -/
def handOn (decode : Nat → DaoCore.CosmosMsg) (e : Env) (propAddr : Addr) :
    List Multiple.SubMsg → DaoCore.World → Res (DaoCore.World × List DaoCore.Sub)
  | [], c => .ok (c, [])
  | m :: rest, c =>
    match m.msg with
    | .executeOnDao dao msgs =>
      if dao = c.core.me then do
        let (c1, out1) ← DaoCore.step c (coreEnv e) (.call propAddr (.executeProposalHook (msgs.map decode)))
        let (c2, out2) ← handOn decode e propAddr rest c1
        .ok (c2, out1 ++ out2)
      else handOn decode e propAddr rest c
    | _ => handOn decode e propAddr rest c

/-- A call of the core by someone else than the proposal module, whose calls `handOn` makes. -/
def notBy (propAddr : Addr) : DaoCore.Call → Bool
  | .call sender _ => decide (sender ≠ propAddr)
  | .deliver _ => true

/-- What a call of the proposal module leads to at the DAO. -/
def passOn (decode : Nat → DaoCore.CosmosMsg) (e : Env) (w : World S) (c : Multiple.Call) (msgs : List Multiple.SubMsg) :
    Res (DaoCore.World × List DaoCore.Sub) :=
  if daoFails c then .ok (w.core, []) else handOn decode e w.propAddr msgs w.core

/-- A step of the DAO. -/
def step (V : VotingModule S E C O) (N : TotalNow S) (decode : Nat → DaoCore.CosmosMsg) (w : World S) (e : Env) :
    Call E C → Res (World S × Out)
  | .core m => do
    require (notBy w.propAddr m) .invalid
    let (c, out) ← DaoCore.step w.core (coreEnv e) m
    .ok ({ w with core := c }, ⟨none, out⟩)
  | .prop m => do
    let (p, out) ← Multiple.step w.prop (propEnv V N w e) m
    let (c, subs) ← passOn decode e w m out.msgs
    .ok ({ w with prop := p, core := c }, ⟨some out, subs⟩)
  | .vote ve m => do
    require (decide (V.sys.block ve = e.block)) .invalid
    let (v, _) ← V.sys.step w.vote ve m
    .ok ({ w with vote := v }, ⟨none, []⟩)

/-- The DAO has just created this proposal module, `instantiate` of which makes the sender its DAO; core and voting
module are in any states they can be in by then. The two contracts have different addresses. -/
def Init (V : VotingModule S E C O) (b : Block) (w : World S) : Prop :=
  w.propAddr ≠ w.core.core.me ∧
  (∃ b1 l, DaoCore.sys.Reach w.core b1 l ∧ b1.le b) ∧ (∃ b1 l, V.sys.Reach w.vote b1 l ∧ b1.le b) ∧
    ∃ env c i out, env.block = b ∧ env.sender = w.core.core.me ∧ Multiple.instantiate env c i = .ok (w.prop, out)

/-- The system. -/
def sys (V : VotingModule S E C O) (N : TotalNow S) (decode : Nat → DaoCore.CosmosMsg) : Sys (World S) Env (Call E C) Out where
  init := Init V
  block := Env.block
  step := step V N decode

/-- An event of a history. -/
abbrev Event (S E C : Type) := Ev (World S) Env (Call E C) Out

end Verif.WholeMulti
