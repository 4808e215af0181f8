import Verif.Base.History
import Verif.Base.Ledger
import Verif.Base.Ownable
/-!
# cw-tokenfactory-issuer

contracts/external/cw-tokenfactory-issuer/src, with the token factory and bank modules of the chain as far as the
contract's messages use them. Addresses are taken as valid. Metadata is left out: nothing reads it.
-/

namespace Verif.Issuer
open Verif

/-- contracts/external/cw-tokenfactory-issuer/src/state.rs:1-33. `features`, `hookAddr`: `BeforeSendHookInfo`. -/
structure State where
  owner : Ownership
  denom : Nat
  features : Bool
  hookAddr : Option Addr
  frozen : Bool
  denylist : AMap Addr Bool
  allowlist : AMap Addr Bool
  burners : AMap Addr Nat
  minters : AMap Addr Nat
  deriving DecidableEq, Repr

/-- Messages to the bank and token factory modules, packages/cw-tokenfactory-types/src/msg.rs:1-103, each with the
denomination. -/
inductive ChainMsg where
  | send (denom : Nat) (dest : Addr) (amount : Nat)
  | mint (denom : Nat) (amount : Nat)
  | burn (denom : Nat) (amount : Nat) (src : Addr)
  | changeAdmin (denom : Nat) (a : Addr)
  | setHook (denom : Nat) (a : Option Addr)
  | force (denom : Nat) (amount : Nat) (src dest : Addr)
  deriving DecidableEq, Repr

/-- `ExecuteMsg` without SetDenomMetadata, contracts/external/cw-tokenfactory-issuer/src/msg.rs:28-109. The empty
hook address is `none`. -/
inductive Msg where
  | allow (a : Addr) (status : Bool)
  | burn (src : Addr) (amount : Nat)
  | mint (dest : Addr) (amount : Nat)
  | deny (a : Addr) (status : Bool)
  | freeze (status : Bool)
  | force (amount : Nat) (src dest : Addr)
  | setHook (a : Option Addr)
  | setBurner (a : Addr) (allowance : Nat)
  | setMinter (a : Addr) (allowance : Nat)
  | updateAdmin (a : Addr)
  | updateOwnership (x : OwnerAction)
  deriving DecidableEq, Repr

/-- `check_before_send_hook_features_enabled`, contracts/external/cw-tokenfactory-issuer/src/helpers.rs:6-13. -/
def State.checkFeatures (s : State) : Res Unit := require s.features .invalid

/-- `check_is_not_denied`, contracts/external/cw-tokenfactory-issuer/src/helpers.rs:16-24. -/
def State.checkNotDenied (s : State) (a : Addr) : Res Unit :=
  require (decide (s.denylist.get a ≠ some true)) .unauthorized

/-- `check_is_not_frozen`, contracts/external/cw-tokenfactory-issuer/src/helpers.rs:29-63. -/
def State.checkNotFrozen (s : State) (src dest : Addr) (denom : Nat) : Res Unit :=
  if s.frozen && decide (denom = s.denom) then
    match s.allowlist.get src, s.allowlist.get dest with
    | some true, _ => .ok ()
    | _, some true => .ok ()
    | _, _ => .error .unauthorized
  else .ok ()

/-- `beforesend_hook`, contracts/external/cw-tokenfactory-issuer/src/hooks.rs:10-25. -/
def State.beforeSend (s : State) (src dest : Addr) (denom : Nat) : Res Unit := do
  s.checkNotFrozen src dest denom
  s.checkNotDenied src
  s.checkNotDenied dest

/-- The contract that listens and whether its features are enabled,
contracts/external/cw-tokenfactory-issuer/src/execute.rs:223-256. -/
def setHookInfo (s : State) (here : Addr) : Option Addr → State
  | none => { s with features := false, hookAddr := none }
  | some a => { s with features := decide (a = here), hookAddr := some a }

/-- An entry of an allowance map: removed when zero. -/
def setAllowance (m : AMap Addr Nat) (a : Addr) (n : Nat) : AMap Addr Nat :=
  if n = 0 then m.erase a else m.set a n

/-- An entry of the denylist or allowlist: removed when false. -/
def setStatus (m : AMap Addr Bool) (a : Addr) (status : Bool) : AMap Addr Bool :=
  if status then m.set a true else m.erase a

/-- `mint`, contracts/external/cw-tokenfactory-issuer/src/execute.rs:19-76. -/
def execMint (s : State) (sender dest : Addr) (amount : Nat) : Res (State × List ChainMsg) := do
  require (decide (amount ≠ 0)) .invalid
  let left ← sub128 (getD0 s.minters sender) amount
  let s1 := { s with minters := setAllowance s.minters sender left }
  s1.checkNotFrozen sender dest s.denom
  .ok (s1, [.mint s.denom amount, .send s.denom dest amount])

/-- `burn`, contracts/external/cw-tokenfactory-issuer/src/execute.rs:83-132. -/
def execBurn (s : State) (sender src : Addr) (amount : Nat) : Res (State × List ChainMsg) := do
  require (decide (amount ≠ 0)) .invalid
  let left ← sub128 (getD0 s.burners sender) amount
  .ok ({ s with burners := setAllowance s.burners sender left }, [.burn s.denom amount src])

/-- `freeze`, contracts/external/cw-tokenfactory-issuer/src/execute.rs:337-363. -/
def execFreeze (s : State) (here sender : Addr) (status : Bool) : Res (State × List ChainMsg) := do
  s.checkFeatures
  s.owner.assertOwner sender
  .ok ({ s with frozen := status, allowlist := setStatus s.allowlist here status }, [])

/-- `deny`, contracts/external/cw-tokenfactory-issuer/src/execute.rs:370-402. -/
def execDeny (s : State) (here sender a : Addr) (status : Bool) : Res (State × List ChainMsg) := do
  s.checkFeatures
  s.owner.assertOwner sender
  require (decide (a ≠ here)) .invalid
  .ok ({ s with denylist := setStatus s.denylist a status }, [])

/-- `allow`, contracts/external/cw-tokenfactory-issuer/src/execute.rs:411-437. -/
def execAllow (s : State) (sender a : Addr) (status : Bool) : Res (State × List ChainMsg) := do
  s.checkFeatures
  s.owner.assertOwner sender
  .ok ({ s with allowlist := setStatus s.allowlist a status }, [])

/-- `execute`, contracts/external/cw-tokenfactory-issuer/src/contract.rs:72-120, with the remaining functions of
contracts/external/cw-tokenfactory-issuer/src/execute.rs:133-474. -/
def exec (s : State) (here : Addr) (b : Block) (sender : Addr) : Msg → Res (State × List ChainMsg)
  | .allow a status => execAllow s sender a status
  | .burn src amount => execBurn s sender src amount
  | .mint dest amount => execMint s sender dest amount
  | .deny a status => execDeny s here sender a status
  | .freeze status => execFreeze s here sender status
  | .force amount src dest => do
    s.owner.assertOwner sender
    .ok (s, [.force s.denom amount src dest])
  | .setHook a => do
    s.owner.assertOwner sender
    .ok (setHookInfo s here a, [.setHook s.denom a])
  | .setBurner a n => do
    s.owner.assertOwner sender
    .ok ({ s with burners := setAllowance s.burners a n }, [])
  | .setMinter a n => do
    s.owner.assertOwner sender
    .ok ({ s with minters := setAllowance s.minters a n }, [])
  | .updateAdmin a => do
    s.owner.assertOwner sender
    .ok (s, [.changeAdmin s.denom a])
  | .updateOwnership x => do
    let o ← s.owner.update b sender x
    .ok ({ s with owner := o }, [])

/-- `instantiate`, contracts/external/cw-tokenfactory-issuer/src/contract.rs:25-69, with the reply that stores the
denomination of a new token (lines 176-189). -/
def instantiate (sender : Addr) (denom : Nat) : State :=
  { owner := { owner := some sender }, denom := denom, features := false, hookAddr := none, frozen := false
    denylist := [], allowlist := [], burners := [], minters := [] }

/-- `query_mint_allowance`, contracts/external/cw-tokenfactory-issuer/src/queries.rs:35-40. -/
def State.mintAllowance (s : State) (a : Addr) : Nat := getD0 s.minters a

/-- `query_burn_allowance`, contracts/external/cw-tokenfactory-issuer/src/queries.rs:43-48. -/
def State.burnAllowance (s : State) (a : Addr) : Nat := getD0 s.burners a

/-- `query_is_denied`, contracts/external/cw-tokenfactory-issuer/src/queries.rs:105-110. -/
def State.isDenied (s : State) (a : Addr) : Bool := (s.denylist.get a).getD false

/-- `query_is_allowed`, contracts/external/cw-tokenfactory-issuer/src/queries.rs:113-118. -/
def State.isAllowed (s : State) (a : Addr) : Bool := (s.allowlist.get a).getD false

/-! ## The chain -/

/-- The bank and token factory modules: who administers a denomination, which contract is asked before transfers of it,
and who holds how much of it. `burnsAny`: burning takes from the account named, as in Osmosis' token factory; in the
others it takes from the administrator (packages/cw-tokenfactory-types/src/msg.rs:123-136). -/
structure Chain where
  admin : AMap Nat Addr
  hook : AMap Nat Addr
  bal : Ledger (Nat × Addr)
  burnsAny : Bool
  deriving DecidableEq, Repr

/-- Ask this contract about a transfer, if it is the listener. -/
def Chain.ask (c : Chain) (s : State) (here src dest : Addr) (denom : Nat) (asked : Bool) : Res Unit :=
  if asked && decide (c.hook.get denom = some here) then s.beforeSend src dest denom else .ok ()

/-- A transfer. When this contract is the listener it is asked, and its error stops the transfer; the answers of other
listeners are left open (they could only stop more). -/
def Chain.transfer (c : Chain) (s : State) (here src dest : Addr) (denom amount : Nat) (asked : Bool) : Res Chain := do
  c.ask s here src dest denom asked
  let bal ← Ledger.move c.bal (denom, src) (denom, dest) amount
  .ok { c with bal := bal }

/-- The sender administers the denomination. -/
def Chain.assertAdmin (c : Chain) (denom : Nat) (who : Addr) : Res Unit :=
  require (decide (c.admin.get denom = some who)) .unauthorized

/-- Run a message of `who`. Minted coins go to the administrator. Whether forced transfers ask the listener is the
chain's choice (`forceAsks`). -/
def Chain.run (c : Chain) (s : State) (here : Addr) (forceAsks : Bool) (who : Addr) : ChainMsg → Res Chain
  | .send d dest n => c.transfer s here who dest d n true
  | .mint d n => do
    c.assertAdmin d who
    let bal ← Ledger.credit c.bal (d, who) n
    .ok { c with bal := bal }
  | .burn d n src => do
    c.assertAdmin d who
    let bal ← Ledger.debit c.bal (d, if c.burnsAny then src else who) n
    .ok { c with bal := bal }
  | .changeAdmin d a => do
    c.assertAdmin d who
    .ok { c with admin := c.admin.set d a }
  | .setHook d a => do
    c.assertAdmin d who
    .ok { c with hook := match a with | some x => c.hook.set d x | none => c.hook.erase d }
  | .force d n src dest => do
    c.assertAdmin d who
    c.transfer s here src dest d n forceAsks

/-- Run messages of `who` in turn. -/
def Chain.runAll (c : Chain) (s : State) (here : Addr) (forceAsks : Bool) (who : Addr) : List ChainMsg → Res Chain
  | [] => .ok c
  | m :: l => do
    let c1 ← c.run s here forceAsks who m
    c1.runAll s here forceAsks who l

/-- The contract at address `here` and the chain. -/
structure World where
  here : Addr
  st : State
  chain : Chain
  deriving DecidableEq, Repr

structure Env where
  block : Block
  sender : Addr
  forceAsks : Bool := true
  deriving DecidableEq, Repr

/-- A message to the contract, or a message to the chain from somebody else. -/
inductive Call where
  | exec (m : Msg)
  | chain (m : ChainMsg)
  deriving DecidableEq, Repr

def step (w : World) (e : Env) : Call → Res (World × Unit)
  | .exec m => do
    let (st, msgs) ← exec w.st w.here e.block e.sender m
    let chain ← w.chain.runAll st w.here e.forceAsks w.here msgs
    .ok ({ w with st := st, chain := chain }, ())
  | .chain m => do
    require (decide (e.sender ≠ w.here)) .invalid
    let chain ← w.chain.run w.st w.here e.forceAsks e.sender m
    .ok ({ w with chain := chain }, ())

/-- Histories of the contract and the chain. -/
def sys : Sys World Env Call Unit where
  init _ w := ∃ sender denom, w.st = instantiate sender denom
  block e := e.block
  step := step

end Verif.Issuer
