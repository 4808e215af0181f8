import Verif.Base.Ownable
import Verif.Model.NftStaked
/-!
# dao-voting-cw721-staked with a collection of its own

The voting module is created together with a new NFT collection. Here are that creation, step by step, and then the module
and the collection side by side, with approvals, operators and the owner of the collection. The voting module over a
collection of which only the owners of the NFTs are recorded is `Verif.Model.NftStaked`.

The collection is cw721-base 0.18, which is not in this repository: what is assumed of it is written here. Simplifications:
token URIs and extensions are left out, as nothing reads them; the contract that gets an NFT by `SendNft`, if it is not the
voting module, answers in later steps.
-/

namespace Verif.NftDao
open Verif

/-- The storage of the collection: who may mint, the owner of each NFT, who is approved for it, and the operators by the
owner who named them. -/
structure Coll where
  addr : Addr
  owner : Ownership
  tokens : AMap Tok Addr
  approvals : AMap Tok (List (Addr × Expiration))
  operators : AMap (Addr × Addr) Expiration
  deriving DecidableEq, Repr

/-- `ExecuteMsg` of cw721-base. -/
inductive CollMsg where
  | mint (token : Tok) (dst : Addr)
  | burn (token : Tok)
  | transfer (dst : Addr) (token : Tok)
  | send (dst : Addr) (token : Tok)
  | approve (spender : Addr) (token : Tok) (expires : Expiration)
  | revoke (spender : Addr) (token : Tok)
  | approveAll (operator : Addr) (expires : Expiration)
  | revokeAll (operator : Addr)
  | updateOwnership (a : OwnerAction)
  | extension
  deriving DecidableEq, Repr

/-- The operator of an owner, if the permission has not expired. -/
def Coll.isOperator (c : Coll) (b : Block) (owner a : Addr) : Bool :=
  match c.operators.get (owner, a) with
  | some e => !e.isExpired b
  | none => false

/-- Approved for a token, if the permission has not expired. -/
def Coll.isApproved (c : Coll) (b : Block) (t : Tok) (a : Addr) : Bool :=
  ((c.approvals.get t).getD []).any (fun x => decide (x.1 = a) && !x.2.isExpired b)

/-- `check_can_send` of cw721-base. -/
def Coll.checkCanSend (c : Coll) (b : Block) (sender : Addr) (t : Tok) : Res Unit := do
  let o ← orErr (c.tokens.get t) .notFound
  require (decide (o = sender) || c.isApproved b t sender || c.isOperator b o sender) .unauthorized

/-- `check_can_approve` of cw721-base. -/
def Coll.checkCanApprove (c : Coll) (b : Block) (sender : Addr) (t : Tok) : Res Unit := do
  let o ← orErr (c.tokens.get t) .notFound
  require (decide (o = sender) || c.isOperator b o sender) .unauthorized

/-- `_transfer_nft` of cw721-base: approvals of the token end. -/
def Coll.move (c : Coll) (b : Block) (sender dst : Addr) (t : Tok) : Res Coll := do
  c.checkCanSend b sender t
  .ok { c with tokens := c.tokens.set t dst, approvals := c.approvals.erase t }

/-- The entries of a list of approvals that are not for `spender`. -/
def withoutSpender (l : List (Addr × Expiration)) (spender : Addr) : List (Addr × Expiration) :=
  l.filter (fun x => decide (x.1 ≠ spender))

/-- `execute` of cw721-base. The number of tokens fits a `u64`. -/
def Coll.exec (c : Coll) (b : Block) (sender : Addr) : CollMsg → Res Coll
  | .mint t dst => do
    c.owner.assertOwner sender
    require (decide (c.tokens.get t = none ∧ c.tokens.length + 1 < U64)) .invalid
    .ok { c with tokens := c.tokens.set t dst, approvals := c.approvals.erase t }
  | .burn t => do
    c.checkCanSend b sender t
    .ok { c with tokens := c.tokens.erase t, approvals := c.approvals.erase t }
  | .transfer dst t => c.move b sender dst t
  | .send dst t => c.move b sender dst t
  | .approve spender t e => do
    c.checkCanApprove b sender t
    require (!e.isExpired b) .invalid
    .ok { c with approvals := c.approvals.set t (withoutSpender ((c.approvals.get t).getD []) spender ++ [(spender, e)]) }
  | .revoke spender t => do
    c.checkCanApprove b sender t
    .ok { c with approvals := c.approvals.set t (withoutSpender ((c.approvals.get t).getD []) spender) }
  | .approveAll a e => do
    require (!e.isExpired b) .invalid
    .ok { c with operators := c.operators.set (sender, a) e }
  | .revokeAll a => .ok { c with operators := c.operators.erase (sender, a) }
  | .updateOwnership x => do
    let o ← c.owner.update b sender x
    .ok { c with owner := o }
  | .extension => .ok c

/-- A new collection whose minter is `minter`: `instantiate` of cw721-base. -/
def newColl (addr minter : Addr) : Coll :=
  { addr := addr, owner := { owner := some minter }, tokens := [], approvals := [], operators := [] }

/-- The collection, the voting module and its address. -/
structure World where
  coll : Coll
  vm : NftStaked.State
  self : Addr
  deriving DecidableEq, Repr

/-- The call of the receiver of a `SendNft`, if it is the voting module. -/
def notify (w : World) (b : Block) (sender : Addr) : CollMsg → Res (World × NftStaked.Out)
  | .send dst t =>
    if dst = w.self then do
      let (c, out) ← NftStaked.exec w.vm b w.coll.tokens.length w.coll.addr (.receiveNft sender t)
      .ok ({ w with vm := c }, out)
    else .ok (w, {})
  | _ => .ok (w, {})

/-- A message to the collection, with the call that follows. -/
def collStep (w : World) (b : Block) (sender : Addr) (m : CollMsg) : Res (World × NftStaked.Out) := do
  let c ← w.coll.exec b sender m
  notify { w with coll := c } b sender m

/-! ## Creation -/

/-- The messages listed in the creation, sent by the voting module one after the other. -/
def runList (b : Block) : List CollMsg → World → Res World
  | [], w => .ok w
  | m :: l, w => do
    let (w1, _) ← collStep w b w.self m
    runList b l w1

/-- The last checks, contracts/voting/dao-voting-cw721-staked/src/contract.rs:715-743. -/
def validate (t : Option Active.ActiveThreshold) (supply : Nat) : Res Unit := do
  require (decide (supply ≠ 0)) .invalid
  NftStaked.checkThreshold t (some supply)

/-- `instantiate` with a new collection, contracts/voting/dao-voting-cw721-staked/src/contract.rs:69-168, with its replies
(659-743), called by the DAO. A percentage is checked before, a count after the messages. -/
def newModule (b : Block) (dao self addr : Addr) (d : Option Duration) (t : Option Active.ActiveThreshold)
    (initial : List CollMsg) : Res World := do
  let vm ← NftStaked.instantiate b dao addr none d t
  require (decide (initial ≠ [])) .invalid
  let w ← runList b initial { coll := newColl addr self, vm := vm, self := self }
  let (w, _) ← collStep w b self (.updateOwnership (.transfer dao none))
  validate t w.coll.tokens.length
  .ok w

/-- A new DAO is created with such a module: the DAO carries out the callback,
contracts/voting/dao-voting-cw721-staked/src/contract.rs:745-761 and contracts/dao-dao-core/src/contract.rs:987-1011. -/
def create (b : Block) (dao self addr : Addr) (d : Option Duration) (t : Option Active.ActiveThreshold)
    (initial : List CollMsg) : Res World := do
  let w ← newModule b dao self addr d t initial
  let (w, _) ← collStep w b dao (.updateOwnership .accept)
  .ok w

/-- A DAO replaces its voting module by such a module: the DAO does not read the callback,
contracts/dao-dao-core/src/contract.rs:1012-1019. -/
def replace (b : Block) (dao self addr : Addr) (d : Option Duration) (t : Option Active.ActiveThreshold)
    (initial : List CollMsg) : Res World := newModule b dao self addr d t initial

/-! ## Afterwards -/

structure Env where
  block : Block
  sender : Addr
  deriving DecidableEq, Repr

/-- A message to the collection or to the voting module. -/
inductive Call where
  | coll (m : CollMsg)
  | vm (m : NftStaked.Msg)
  deriving DecidableEq, Repr

/-- The `TransferNft` messages of the voting module. -/
def giveBack (b : Block) (self : Addr) : List (Addr × Tok) → Coll → Res Coll
  | [], c => .ok c
  | (a, t) :: l, c => do
    let c1 ← c.exec b self (.transfer a t)
    giveBack b self l c1

/-- One transaction of anybody but the two contracts, which send nothing of their own accord. -/
def step (w : World) (e : Env) : Call → Res (World × NftStaked.Out)
  | .coll m => do
    require (decide (e.sender ≠ w.self ∧ e.sender ≠ w.coll.addr)) .unauthorized
    collStep w e.block e.sender m
  | .vm m => do
    require (decide (e.sender ≠ w.self ∧ e.sender ≠ w.coll.addr)) .unauthorized
    let (c, out) ← NftStaked.exec w.vm e.block w.coll.tokens.length e.sender m
    let coll ← giveBack e.block w.self out.send w.coll
    .ok ({ w with vm := c, coll := coll }, out)

/-- The module was created with a new DAO or replaced another one, with a list of messages that is `ok`. The three contracts
have different addresses. -/
def Init (ok : Addr → List CollMsg → Prop) (b : Block) (w : World) : Prop :=
  ∃ dao self addr d t initial, dao ≠ self ∧ dao ≠ addr ∧ self ≠ addr ∧ ok self initial ∧
    (create b dao self addr d t initial = .ok w ∨ replace b dao self addr d t initial = .ok w)

/-- Histories of the module and the collection, for the lists of messages that are `ok`. -/
def sysOf (ok : Addr → List CollMsg → Prop) : Sys World Env Call NftStaked.Out where
  init := Init ok
  block e := e.block
  step := step

/-- Histories after any creation. -/
def sys : Sys World Env Call NftStaked.Out := sysOf (fun _ _ => True)

/-- `query_is_active`, contracts/voting/dao-voting-cw721-staked/src/contract.rs:508-575. -/
def active (w : World) (b : Block) : Res Bool := NftStaked.active w.vm b w.coll.tokens.length

end Verif.NftDao
