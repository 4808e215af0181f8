import Verif.Base.SnapHistory
import Verif.Base.Ownable
import Verif.Model.Hooks
/-!
# Model of `contracts/external/cw721-roles` and `contracts/voting/dao-voting-cw721-roles`

The NFT contract whose tokens carry a voting weight, and the voting module that reads it. Simplifications,
all of them: addresses validate; names, token URIs, roles and token ids are numbers; event attributes, the
cw2 version, `migrate`, the name and symbol of the collection, and the paging of the list of members are
dropped (paging is studied in `Verif.Model.Paginate`). The messages that the contract passes on to
`cw721_base` (external crate, version 0.18) other than minting and ownership are the approvals; no function
of this contract reads an approval, so they are left out. Receivers of hooks and of sent tokens are other
contracts: the messages to them are recorded, their own calls are later steps of the history.
-/

namespace Verif.Roles
open Verif

/-- A token: `TokenInfo` of `cw721_base` with the `MetadataExt` of
packages/dao-cw721-extensions/src/roles.rs:6-12. -/
structure Token where
  owner : Addr
  uri : Option Nat := none
  role : Option Nat := none
  weight : Nat
  deriving DecidableEq, Repr

/-- The storage of the contract, contracts/external/cw721-roles/src/state.rs:5-24, with the tokens, their
count and the ownership that `cw721_base` keeps. -/
structure State where
  ownership : Ownership
  tokens : AMap Nat Token
  count : Nat
  members : Snap Addr Nat
  total : Snap Unit Nat
  hooks : Hooks.HookList
  deriving DecidableEq, Repr

/-- `ExecuteMsg`: `cw721_base::ExecuteMsg` with `ExecuteExt`,
packages/dao-cw721-extensions/src/roles.rs:15-39, without the approvals. -/
inductive Msg where
  | mint (token : Nat) (owner : Addr) (uri role : Option Nat) (weight : Nat)
  | burn (token : Nat)
  | transferNft (recipient : Addr) (token : Nat)
  | sendNft (contract : Addr) (token : Nat)
  | updateTokenWeight (token weight : Nat)
  | updateTokenRole (token : Nat) (role : Option Nat)
  | updateTokenUri (token : Nat) (uri : Option Nat)
  | addHook (a : Addr)
  | removeHook (a : Addr)
  | updateOwnership (x : OwnerAction)
  deriving DecidableEq, Repr

/-- `cw4::MemberDiff` to one receiver. -/
structure HookMsg where
  to : Addr
  member : Addr
  old : Option Nat
  new : Option Nat
  deriving DecidableEq, Repr

/-- What a call sends: messages to the hooks, and the call of the receiver of a sent token. -/
structure Out where
  hooks : List HookMsg := []
  receive : List (Addr × Nat) := []
  deriving DecidableEq, Repr

/-- The hook messages about one member, `HOOKS.prepare_hooks` in
contracts/external/cw721-roles/src/contract.rs:127-132. -/
def announce (h : Hooks.HookList) (a : Addr) (old new : Option Nat) : Out :=
  { hooks := Hooks.prepareHooks h (fun _ to => ⟨to, a, old, new⟩) }

/-- `instantiate`, contracts/external/cw721-roles/src/contract.rs:33-49: the minter is the owner. -/
def instantiate (b : Block) (minter : Addr) : State :=
  { ownership := { owner := some minter }, tokens := [], count := 0, members := Snap.empty,
    total := Snap.empty.save () 0 b.height, hooks := none }

/-- `execute_mint`, contracts/external/cw721-roles/src/contract.rs:98-148, with the minting of
`cw721_base`. -/
def execMint (s : State) (b : Block) (t : Nat) (owner : Addr) (uri role : Option Nat) (weight : Nat) :
    Res (State × Out) := do
  let total ← orErr (s.total.get ()) .notFound
  let total' ← add64 total weight
  let new ← add64 ((s.members.get owner).getD 0) weight
  require (decide (s.tokens.get t = none)) (.custom 1)
  let count ← add64 s.count 1
  .ok ({ s with tokens := s.tokens.set t ⟨owner, uri, role, weight⟩
                count := count
                members := s.members.save owner new b.height
                total := s.total.save () total' b.height },
       announce s.hooks owner (s.members.get owner) (some new))

/-- The member after a burn, contracts/external/cw721-roles/src/contract.rs:190-206: removed when nothing
is left. -/
def setMember (m : Snap Addr Nat) (h : Nat) (a : Addr) (new : Nat) : Snap Addr Nat :=
  if new = 0 then m.remove a h else m.save a new h

/-- The new weight told to the hooks by a burn. -/
def leftOver (new : Nat) : Option Nat := if new = 0 then none else some new

/-- `execute_burn`, contracts/external/cw721-roles/src/contract.rs:150-229. -/
def execBurn (s : State) (b : Block) (t : Nat) : Res (State × Out) := do
  let tok ← orErr (s.tokens.get t) .notFound
  let total ← orErr (s.total.get ()) .notFound
  let old ← orErr (s.members.get tok.owner) .notFound
  require (decide (tok.weight ≤ old)) (.custom 2)
  require (decide (tok.weight ≤ total)) .underflow
  require (decide (1 ≤ s.count)) .panic
  .ok ({ s with tokens := s.tokens.erase t
                count := s.count - 1
                members := setMember s.members b.height tok.owner (old - tok.weight)
                total := s.total.save () (total - tok.weight) b.height },
       announce s.hooks tok.owner (some old) (leftOver (old - tok.weight)))

/-- The closure of `execute_update_token_weight`,
contracts/external/cw721-roles/src/contract.rs:369-415: the owner's new weight, the new total and the change
told to the hooks. A lower weight leaves the change as it was first set: without old and new weight. -/
def reweigh (total : Nat) (old : Option Nat) (was weight : Nat) :
    Res (Nat × Nat × Option Nat × Option Nat) :=
  if weight = was then .error (.custom 3)
  else if was < weight then do
    let total' ← add64 total (weight - was)
    let new ← add64 (old.getD 0) (weight - was)
    .ok (new, total', old, some new)
  else do
    require (decide (was - weight ≤ old.getD 0)) (.custom 4)
    require (decide (was - weight ≤ total)) .underflow
    .ok (old.getD 0 - (was - weight), total - (was - weight), none, none)

/-- `execute_update_token_weight`, contracts/external/cw721-roles/src/contract.rs:354-435. -/
def execWeight (s : State) (b : Block) (t weight : Nat) : Res (State × Out) := do
  let tok ← orErr (s.tokens.get t) .notFound
  let total ← orErr (s.total.get ()) .notFound
  let (new, total', o, n) ← reweigh total (s.members.get tok.owner) tok.weight weight
  .ok ({ s with tokens := s.tokens.set t { tok with weight := weight }
                members := s.members.save tok.owner new b.height
                total := s.total.save () total' b.height },
       announce s.hooks tok.owner o n)

/-- `execute_transfer`, contracts/external/cw721-roles/src/contract.rs:231-251: only the owner of the token
changes. -/
def execTransfer (s : State) (to : Addr) (t : Nat) : Res State := do
  let tok ← orErr (s.tokens.get t) .notFound
  .ok { s with tokens := s.tokens.set t { tok with owner := to } }

/-- `execute_update_token_role`, contracts/external/cw721-roles/src/contract.rs:309-330. -/
def execRole (s : State) (t : Nat) (role : Option Nat) : Res State := do
  let tok ← orErr (s.tokens.get t) .notFound
  .ok { s with tokens := s.tokens.set t { tok with role := role } }

/-- `execute_update_token_uri`, contracts/external/cw721-roles/src/contract.rs:332-352. -/
def execUri (s : State) (t : Nat) (uri : Option Nat) : Res State := do
  let tok ← orErr (s.tokens.get t) .notFound
  .ok { s with tokens := s.tokens.set t { tok with uri := uri } }

/-- The dispatch of `execute`, contracts/external/cw721-roles/src/contract.rs:61-96, with `execute_send`,
contract.rs:253-281, which moves the token as a transfer does and then calls the receiver. -/
def dispatch (s : State) (b : Block) (sender : Addr) : Msg → Res (State × Out)
  | .mint t o u r w => execMint s b t o u r w
  | .burn t => execBurn s b t
  | .transferNft to t => do
    let s' ← execTransfer s to t
    .ok (s', {})
  | .sendNft to t => do
    let s' ← execTransfer s to t
    .ok (s', { receive := [(to, t)] })
  | .updateTokenWeight t w => execWeight s b t w
  | .updateTokenRole t r => do
    let s' ← execRole s t r
    .ok (s', {})
  | .updateTokenUri t u => do
    let s' ← execUri s t u
    .ok (s', {})
  | .addHook a => do
    let h ← Hooks.addHook s.hooks a
    .ok ({ s with hooks := h }, {})
  | .removeHook a => do
    let h ← Hooks.removeHook s.hooks a
    .ok ({ s with hooks := h }, {})
  | .updateOwnership x => do
    let o ← s.ownership.update b sender x
    .ok ({ s with ownership := o }, {})

/-- `execute`, contracts/external/cw721-roles/src/contract.rs:52-96: the owner is checked before the
message is looked at. -/
def exec (s : State) (b : Block) (sender : Addr) (m : Msg) : Res (State × Out) := do
  s.ownership.assertOwner sender
  dispatch s b sender m

/-- `query_member` with a height, contracts/external/cw721-roles/src/contract.rs:465-473. -/
def memberAt (s : State) (a : Addr) (h : Nat) : Option Nat := s.members.atHeight a h

/-- `query_member` without a height, contracts/external/cw721-roles/src/contract.rs:465-473. -/
def memberNow (s : State) (a : Addr) : Option Nat := s.members.get a

/-- `query_total_weight` with a height, contracts/external/cw721-roles/src/contract.rs:456-463. -/
def totalAt (s : State) (h : Nat) : Nat := (s.total.atHeight () h).getD 0

/-- `query_total_weight` without a height, contracts/external/cw721-roles/src/contract.rs:456-463. -/
def totalNow (s : State) : Nat := (s.total.get ()).getD 0

/-- Who calls, and in which block. -/
structure Env where
  block : Block
  sender : Addr
  deriving DecidableEq, Repr

/-- The role contract on its own: any instantiation, then any calls by anybody. -/
def sys : Sys State Env Msg Out where
  init b s := ∃ minter, s = instantiate b minter
  block e := e.block
  step s e m := exec s e.block e.sender m

/-! ## The voting module -/

namespace Voting

/-- The storage of the voting module, contracts/voting/dao-voting-cw721-roles/src/state.rs:6-15, with its
own address; and the role contract it points to. -/
structure World where
  dao : Addr
  self : Addr
  nft : Addr
  roles : State
  deriving DecidableEq, Repr

/-- One of the initial tokens, `NftMintMsg`, contracts/voting/dao-voting-cw721-roles/src/msg.rs:6-17. -/
structure Initial where
  token : Nat
  owner : Addr
  uri : Option Nat := none
  role : Option Nat := none
  weight : Nat
  deriving DecidableEq, Repr

/-- The mint messages of `reply`, contracts/voting/dao-voting-cw721-roles/src/contract.rs:181-204. -/
def mintAll (s : State) (b : Block) (self : Addr) : List Initial → Res State
  | [] => .ok s
  | i :: rest => do
    let r ← exec s b self (.mint i.token i.owner i.uri i.role i.weight)
    mintAll r.1 b self rest

/-- `instantiate` with a new role contract, contracts/voting/dao-voting-cw721-roles/src/contract.rs:46-80,
and `reply`, contract.rs:165-232: the voting module is the minter of the new contract, names the DAO its next
owner and mints the initial tokens. -/
def instantiateNew (b : Block) (dao self nft : Addr) (initial : List Initial) : Res World := do
  require (decide (initial ≠ [])) .invalid
  let r ← exec (instantiate b self) b self (.updateOwnership (.transfer dao none))
  let s ← mintAll r.1 b self initial
  .ok { dao := dao, self := self, nft := nft, roles := s }

/-- `query_voting_power_at_height`, contracts/voting/dao-voting-cw721-roles/src/contract.rs:107-128. -/
def power (w : World) (a : Addr) : Option Nat → Nat
  | some h => (memberAt w.roles a h).getD 0
  | none => (memberNow w.roles a).getD 0

/-- `query_total_power_at_height`, contracts/voting/dao-voting-cw721-roles/src/contract.rs:130-147. -/
def totalPower (w : World) : Option Nat → Nat
  | some h => totalAt w.roles h
  | none => totalNow w.roles

/-- Transactions: a call of the role contract, or of the voting module. -/
inductive Call where
  | roles (m : Msg)
  | voting
  deriving DecidableEq, Repr

/-- One transaction. The voting module refuses every message, `execute`,
contracts/voting/dao-voting-cw721-roles/src/contract.rs:83-91, and so sends none after its instantiation:
it is not the sender of a later call. -/
def step (w : World) (e : Env) : Call → Res (World × Out)
  | .roles m => do
    require (decide (e.sender ≠ w.self)) .unauthorized
    let r ← exec w.roles e.block e.sender m
    .ok ({ w with roles := r.1 }, r.2)
  | .voting => .error .invalid

/-- The voting module with a role contract of its own making. -/
def sysNew : Sys World Env Call Out where
  init b w := ∃ dao self nft initial, instantiateNew b dao self nft initial = .ok w
  block e := e.block
  step := step

/-- The voting module over a role contract that existed before,
contracts/voting/dao-voting-cw721-roles/src/contract.rs:37-45. -/
def sysExisting : Sys World Env Call Out where
  init b w := ∃ log, Roles.sys.Reach w.roles b log
  block e := e.block
  step := step

end Voting
end Verif.Roles
