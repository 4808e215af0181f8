import Verif.Base.History
import Verif.Model.Single
import Verif.Model.DaoCore
/-!
# A whole DAO: core contract, proposal module and voting module together

The parts are the models of dao-dao-core, dao-proposal-single and any of the voting modules, each with its own calls
by anybody. What is added here are the wires between them: the proposal module asks the DAO for powers, the DAO asks its
voting module; and what the proposal module sends to the DAO on execution the DAO carries out as a call of that module.

Simplifications: messages from one part to another other than these two (a DAO that calls its own proposal module to
change its configuration, hooks) are calls made by anybody with any sender, so every order and every content of them is
covered. The messages of a proposal are numbers in the model of dao-proposal-single and terms in that of dao-dao-core;
`decode`, any function, stands for the reading of their bytes.
-/

namespace Verif.WholeDao

/-- A voting module: its histories, what it answers for a height (`power`, `total`), and what it holds now. -/
structure VotingModule (S E C O : Type) where
  sys : Sys S E C O
  power : S → Addr → Nat → Nat
  total : S → Nat → Nat
  weight : S → Addr → Nat
  totalWeight : S → Nat

/-- The contracts of the DAO, and the addresses of the proposal module and the voting module. -/
structure World (S : Type) where
  core : DaoCore.World
  prop : Single.State
  vote : S
  propAddr : Addr
  voteAddr : Addr

/-- What a transaction sees: the block, the sender, what other DAOs and other voting modules would answer, and the
queries of other contracts. -/
structure Env where
  block : Block
  sender : Addr
  power : Addr → Addr → Nat → Nat
  total : Addr → Nat → Nat
  active : Bool
  isCw20 : Addr → Bool
  isCw721 : Addr → Bool

/-- Calls of the three contracts. A call of the voting module comes with what it sees. -/
inductive Call (E C : Type) where
  | core (m : DaoCore.Call)
  | prop (c : Single.Call)
  | vote (e : E) (c : C)

/-- What came of a call: the response of the proposal module, if it was called, and what the DAO now has to send. -/
structure Out where
  prop : Option Single.Out
  core : List DaoCore.Sub

variable {S E C O : Type}

/-- The DAO asked has this voting module. -/
def Wired (w : World S) (dao : Addr) : Prop := dao = w.core.core.me ∧ w.core.core.voting = some w.voteAddr

instance (w : World S) (dao : Addr) : Decidable (Wired w dao) := inferInstanceAs (Decidable (_ ∧ _))

/-- What the proposal module sees: `query_voting_power_at_height` and `query_total_power_at_height` of the DAO,
contracts/dao-dao-core/src/contract.rs:719-740, pass the question on to the voting module. -/
def propEnv (V : VotingModule S E C O) (w : World S) (e : Env) : Single.Env where
  block := e.block
  sender := e.sender
  power := fun d a h => if Wired w d then V.power w.vote a h else e.power d a h
  total := fun d h => if Wired w d then V.total w.vote h else e.total d h
  active := e.active

/-- What the DAO sees. -/
def coreEnv (e : Env) : DaoCore.Env := ⟨e.block, e.isCw20, e.isCw721⟩

/-- The fate of the message of `execute`, see `Single.Call`: if it fails the DAO is as before. -/
def daoFails : Single.Call → Bool
  | .execute _ f => f
  | _ => false

/-- The submessages of the proposal module reach the DAO: `ExecuteProposalHook`,
contracts/proposal/dao-proposal-single/src/contract.rs:428-446, is a call by the proposal module; everything else is for
others. -/
def handOn (decode : Nat → DaoCore.CosmosMsg) (e : Env) (propAddr : Addr) :
    List Single.SubMsg → DaoCore.World → Res (DaoCore.World × List DaoCore.Sub)
  | [], c => .ok (c, [])
  | m :: rest, c =>
    match m.msg with
    | .executeOnDao dao msgs =>
      if dao = c.core.me then do
        let (c1, out1) ← DaoCore.step c (coreEnv e) (.call propAddr (.executeProposalHook (msgs.map decode)))
        let (c2, out2) ← handOn decode e propAddr rest c1
        .ok (c2, out1 ++ out2)
      else handOn decode e propAddr rest c
    | _ => handOn decode e propAddr rest c

/-- A call of the core by someone else than the proposal module, whose calls `handOn` makes. -/
def notBy (propAddr : Addr) : DaoCore.Call → Bool
  | .call sender _ => decide (sender ≠ propAddr)
  | .deliver _ => true

/-- What a call of the proposal module leads to at the DAO. -/
def passOn (decode : Nat → DaoCore.CosmosMsg) (e : Env) (w : World S) (c : Single.Call) (msgs : List Single.SubMsg) :
    Res (DaoCore.World × List DaoCore.Sub) :=
  if daoFails c then .ok (w.core, []) else handOn decode e w.propAddr msgs w.core

/-- A step of the DAO. -/
def step (V : VotingModule S E C O) (decode : Nat → DaoCore.CosmosMsg) (w : World S) (e : Env) :
    Call E C → Res (World S × Out)
  | .core m => do
    require (notBy w.propAddr m) .invalid
    let (c, out) ← DaoCore.step w.core (coreEnv e) m
    .ok ({ w with core := c }, ⟨none, out⟩)
  | .prop m => do
    let (p, out) ← Single.step w.prop (propEnv V w e) m
    let (c, subs) ← passOn decode e w m out.msgs
    .ok ({ w with prop := p, core := c }, ⟨some out, subs⟩)
  | .vote ve m => do
    require (decide (V.sys.block ve = e.block)) .invalid
    let (v, _) ← V.sys.step w.vote ve m
    .ok ({ w with vote := v }, ⟨none, []⟩)

/-- The DAO has just created this proposal module, `instantiate` of which makes the sender its DAO; core and voting
module are in any states they can be in by then. The two contracts have different addresses. -/
def Init (V : VotingModule S E C O) (b : Block) (w : World S) : Prop :=
  w.propAddr ≠ w.core.core.me ∧
  (∃ b1 l, DaoCore.sys.Reach w.core b1 l ∧ b1.le b) ∧ (∃ b1 l, V.sys.Reach w.vote b1 l ∧ b1.le b) ∧
    ∃ env c i out, env.block = b ∧ env.sender = w.core.core.me ∧ Single.instantiate env c i = .ok (w.prop, out)

/-- The system. -/
def sys (V : VotingModule S E C O) (decode : Nat → DaoCore.CosmosMsg) : Sys (World S) Env (Call E C) Out where
  init := Init V
  block := Env.block
  step := step V decode

/-- An event of a history. -/
abbrev Event (S E C : Type) := Ev (World S) Env (Call E C) Out

end Verif.WholeDao
