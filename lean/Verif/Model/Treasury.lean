import Verif.Model.FullDao
import Verif.Base.Coins
/-!
# A DAO and its treasury

The DAO of `Model/FullDao`, and the native coins and cw20 tokens of everybody, the DAO among them. What the DAO sends costs
coins and tokens: payments, coins attached to messages, funds of the modules it creates, allowances it gives.

The bank module and the cw20 contracts (cw20-base, external crate) behave as documented. Tokens whose issuer can take them from
their holders are left out here; `Model/Issuer` has them.
-/

namespace Verif.Treasury
open Verif
open Verif.WholeDao (VotingModule)
open Verif.WholeCondorcet (Now)
open Verif.FullDao (Env)

/-- `AllowanceResponse` of cw20 (external crate, Cargo.toml:50): how much may be taken, and until when. -/
structure Allowance where
  amount : Nat
  expires : Expiration
  deriving DecidableEq, Repr

/-- All balances, and who may take how much from whom: by token contract, holder and spender. -/
structure Chain where
  bal : Balances
  allow : AMap (Addr × Addr × Addr) Allowance
  deriving DecidableEq, Repr

/-- What is done with coins and tokens: `BankMsg::Send` or cw20 `Transfer` and `Send`, `Burn`, `IncreaseAllowance`,
`DecreaseAllowance`, `TransferFrom` or `SendFrom`, `BurnFrom`. -/
inductive Op where
  | send (t : Token) (dest : Addr) (n : Nat)
  | burn (t : Token) (n : Nat)
  | increase (c spender : Addr) (n : Nat) (expires : Option Expiration)
  | decrease (c spender : Addr) (n : Nat) (expires : Option Expiration)
  | sendFrom (c holder dest : Addr) (n : Nat)
  | burnFrom (c holder : Addr) (n : Nat)
  deriving DecidableEq, Repr

/-- Part of `execute_increase_allowance` and `execute_decrease_allowance` of cw20-base (external crate, Cargo.toml:51): a new
expiration must lie ahead; without one the old one stays. -/
def renew (b : Block) (old : Expiration) : Option Expiration → Res Expiration
  | none => .ok old
  | some x => do
    require (!x.isExpired b) .invalid
    .ok x

/-- `deduct_allowance` of cw20-base (external crate, Cargo.toml:51). -/
def deduct (c : Chain) (b : Block) (token holder spender : Addr) (n : Nat) : Res Chain := do
  let a ← orErr (c.allow.get (token, holder, spender)) .notFound
  require (!a.expires.isExpired b) .unauthorized
  let x ← sub128 a.amount n
  .ok { c with allow := c.allow.set (token, holder, spender) { a with amount := x } }

/-- `execute_decrease_allowance` of cw20-base (external crate, Cargo.toml:51). -/
def lower (c : Chain) (b : Block) (token holder spender : Addr) (n : Nat) (exp : Option Expiration) : Res Chain := do
  let a ← orErr (c.allow.get (token, holder, spender)) .notFound
  if n < a.amount then do
    let x ← renew b a.expires exp
    .ok { c with allow := c.allow.set (token, holder, spender) ⟨a.amount - n, x⟩ }
  else .ok { c with allow := c.allow.erase (token, holder, spender) }

/-- `execute_increase_allowance` of cw20-base (external crate, Cargo.toml:51). -/
def raise (c : Chain) (b : Block) (token holder spender : Addr) (n : Nat) (exp : Option Expiration) : Res Chain := do
  require (decide (spender ≠ holder)) .invalid
  let a := (c.allow.get (token, holder, spender)).getD ⟨0, .never⟩
  let x ← renew b a.expires exp
  let m ← add128 a.amount n
  .ok { c with allow := c.allow.set (token, holder, spender) ⟨m, x⟩ }

/-- What `who` does with coins and tokens. -/
def Chain.run (c : Chain) (b : Block) (who : Addr) : Op → Res Chain
  | .send t dest n => do
    let l ← c.bal.move (t, who) (t, dest) n
    .ok { c with bal := l }
  | .burn t n => do
    let l ← c.bal.debit (t, who) n
    .ok { c with bal := l }
  | .increase token spender n exp => raise c b token who spender n exp
  | .decrease token spender n exp => lower c b token who spender n exp
  | .sendFrom token holder dest n => do
    let c1 ← deduct c b token holder who n
    let l ← c1.bal.move (.cw20 token, holder) (.cw20 token, dest) n
    .ok { c1 with bal := l }
  | .burnFrom token holder n => do
    let c1 ← deduct c b token holder who n
    let l ← c1.bal.debit (.cw20 token, holder) n
    .ok { c1 with bal := l }

/-- One after the other. -/
def Chain.runAll (c : Chain) (b : Block) (who : Addr) : List Op → Res Chain
  | [] => .ok c
  | x :: rest => do
    let c1 ← c.run b who x
    c1.runAll b who rest

/-- What messages of the DAO do with its coins and tokens, with the coins attached to them; and the coins a new module is given,
`funds` of `ModuleInstantiateInfo`, packages/dao-interface/src/state.rs:55-67. -/
structure Reading where
  ops : Nat → List Op
  funds : Nat → List (Nat × Nat)

/-- What something that the DAO sends does with its coins and tokens: a module gets its funds when it is created,
`into_wasm_msg`, packages/dao-interface/src/state.rs:70-81; a message of the DAO to itself moves nothing. -/
def bill (r : Reading) (c : DaoCore.Created) : DaoCore.Sub → List Op
  | .create _ i => (r.funds i).map (fun x => .send (.native x.1) c.address x.2)
  | .send (.toSelf _) => []
  | .send (.other n) => r.ops n

/-- What a call of the DAO does with the coins and tokens of the DAO: only what the DAO sends does something. -/
def due {F D : Type} (r : Reading) (stack : List DaoCore.Sub) : FullDao.Call F D → List Op
  | .core (.deliver c) =>
    match stack with
    | d :: _ => bill r c d
    | [] => []
  | _ => []

/-- The DAO, and the coins and tokens. -/
structure World (T : Type) where
  dao : FullDao.World T
  chain : Chain

/-- Calls: something happens in the DAO; somebody else does something with coins and tokens; new ones are issued. -/
inductive Call (F D : Type) where
  | dao (c : FullDao.Call F D)
  | other (who : Addr) (x : Op)
  | issue (t : Token) (dest : Addr) (n : Nat)

variable {T F D P : Type}

/-- A step. The messages of a DAO are sent by its core contract, `execute_proposal_hook`,
contracts/dao-dao-core/src/contract.rs:215-232; nobody else acts with its address. -/
def step (U : VotingModule T F D P) (N : Now T) (decode : Nat → DaoCore.CosmosMsg) (r : Reading) (w : World T) (e : Env) :
    Call F D → Res (World T × FullDao.Out)
  | .dao c => do
    let (q, o) ← FullDao.step U N decode w.dao e c
    let ch ← w.chain.runAll e.block w.dao.core.core.me (due r w.dao.core.stack c)
    .ok (⟨q, ch⟩, o)
  | .other who x => do
    require (decide (who ≠ w.dao.core.core.me)) .unauthorized
    let ch ← w.chain.run e.block who x
    .ok ({ w with chain := ch }, ⟨.none, []⟩)
  | .issue t dest n => do
    let l ← w.chain.bal.credit (t, dest) n
    .ok ({ w with chain := { w.chain with bal := l } }, ⟨.none, []⟩)

/-- The system: it begins with a new DAO; everybody may have coins, tokens and allowances. -/
def sys (U : VotingModule T F D P) (N : Now T) (decode : Nat → DaoCore.CosmosMsg) (r : Reading) :
    Sys (World T) Env (Call F D) FullDao.Out where
  init b w := FullDao.Init U b w.dao
  block := Env.block
  step := step U N decode r

/-- An event of a history. -/
abbrev Event (T F D : Type) := Ev (World T) Env (Call F D) FullDao.Out

end Verif.Treasury
