import Verif.Base.History
import Verif.Base.Map
/-!
# dao-dao-core

The core contract of a DAO: it holds the treasury, sends out what its enabled proposal modules and its admin tell it to
send, and keeps the DAO's settings.

Strings (names, item keys and values, charters, module labels and messages) are numbers here, addresses are valid.
-/

namespace Verif.DaoCore

/-- 2^32, the bound of the counts of proposal modules. -/
def U32 : Nat := 4294967296
attribute [irreducible] U32

/-- `Config`, packages/dao-interface/src/state.rs:6-22. Name, description, image and URI are one number. -/
structure Config where
  texts : Nat
  autoCw20 : Bool
  autoCw721 : Bool
  deriving DecidableEq, Repr

/-- `ProposalModule`, packages/dao-interface/src/state.rs:26-34. The prefix is a list of letters, 0 for `A`. -/
structure Module where
  address : Addr
  prefix_ : List Nat
  enabled : Bool
  deriving DecidableEq, Repr

mutual
/-- `ExecuteMsg`, packages/dao-interface/src/msg.rs:56-134. -/
inductive Msg where
  | executeAdminMsgs (msgs : List CosmosMsg)
  | executeProposalHook (msgs : List CosmosMsg)
  | pause (d : Duration)
  | unpause
  | receive
  | receiveNft
  | removeItem (key : Nat)
  | setItem (key value : Nat)
  | updateConfig (c : Config)
  | updateCw20List (add remove : List Addr)
  | updateCw721List (add remove : List Addr)
  | updateVotingModule (info : Nat)
  | updateProposalModules (add : List Nat) (disable : List Addr)
  | nominateAdmin (admin : Option Addr)
  | acceptAdminNomination
  | withdrawAdminNomination
  | updateSubDaos (add : List (Addr × Option Nat)) (remove : List Addr)

/-- A `CosmosMsg`: a message for the DAO itself, or any other. -/
inductive CosmosMsg where
  | toSelf (m : Msg)
  | other (n : Nat)
end

/-- The reply ids, contracts/dao-dao-core/src/contract.rs:33-35. -/
inductive Role where
  | proposalModule
  | votingModule
  | votingModuleUpdate
  deriving DecidableEq, Repr

/-- A submessage of the DAO: the instantiation of a module, with a reply, or a plain message. -/
inductive Sub where
  | create (role : Role) (info : Nat)
  | send (m : CosmosMsg)

/-- The storage, contracts/dao-dao-core/src/state.rs:14-59, and the contract's own address. -/
structure State where
  me : Addr
  admin : Addr
  nominated : Option Addr
  config : Config
  paused : Option Expiration
  voting : Option Addr
  modules : AMap Addr Module
  active : Nat
  total : Nat
  items : AMap Nat Nat
  cw20s : AMap Addr Unit
  cw721s : AMap Addr Unit
  subDaos : AMap Addr (Option Nat)
  deriving DecidableEq, Repr

/-- What a transaction sees: the block, and whether an address answers the query for a cw20 balance or for the
information of a cw721 contract. -/
structure Env where
  block : Block
  isCw20 : Addr → Bool
  isCw721 : Addr → Bool

/-- The loop of `derive_proposal_module_prefix`, letters last first; `fuel` bounds the number of letters. -/
def prefixLoop : Nat → Nat → List Nat
  | 0, _ => []
  | fuel + 1, dividend =>
    let remainder := (dividend - 1) % 26
    let dividend := (dividend - remainder) / 26
    remainder :: if dividend = 0 then [] else prefixLoop fuel dividend

/-- `derive_proposal_module_prefix`, contracts/dao-dao-core/src/contract.rs:1024-1038. `dividend + 1` letters always
suffice. -/
def derivePrefix (dividend : Nat) : List Nat := (prefixLoop (dividend + 1) (dividend + 1)).reverse

/-- The loop over the initial items of `instantiate`. -/
def saveItems (m : AMap Nat Nat) : List (Nat × Nat) → AMap Nat Nat
  | [] => m
  | (k, v) :: rest => saveItems (m.set k v) rest

/-- `instantiate`, contracts/dao-dao-core/src/contract.rs:38-100: the first state and the modules to create. -/
def instantiate (me : Addr) (config : Config) (admin : Option Addr) (voting : Nat) (proposals : List Nat)
    (items : List (Nat × Nat)) : Res (State × List Sub) := do
  require (!proposals.isEmpty) .invalid
  require (decide ((items.map Prod.fst).Nodup)) .invalid
  .ok ({ me := me, admin := admin.getD me, nominated := none, config := config, paused := none, voting := none
         modules := [], active := 0, total := 0, items := saveItems [] items, cw20s := [], cw721s := []
         subDaos := [] },
    .create .votingModule voting :: proposals.map (Sub.create .proposalModule))

/-- `execute_pause`, contracts/dao-dao-core/src/contract.rs:162-181. -/
def pause (s : State) (e : Env) (sender : Addr) (d : Duration) : Res (State × List Sub) := do
  require (decide (sender = s.me)) .unauthorized
  .ok ({ s with paused := some (d.after e.block) }, [])

/-- `execute_unpause`, contracts/dao-dao-core/src/contract.rs:183-196. -/
def unpause (s : State) (sender : Addr) : Res (State × List Sub) := do
  require (decide (sender = s.admin)) .unauthorized
  .ok ({ s with paused := none }, [])

/-- `execute_admin_msgs`, contracts/dao-dao-core/src/contract.rs:198-213. -/
def adminMsgs (s : State) (sender : Addr) (msgs : List CosmosMsg) : Res (State × List Sub) := do
  require (decide (sender = s.admin)) .unauthorized
  .ok (s, msgs.map .send)

/-- `execute_proposal_hook`, contracts/dao-dao-core/src/contract.rs:215-232. -/
def proposalHook (s : State) (sender : Addr) (msgs : List CosmosMsg) : Res (State × List Sub) := do
  let m ← orErr (s.modules.get sender) .unauthorized
  require m.enabled .invalid
  .ok (s, msgs.map .send)

/-- `execute_nominate_admin`, contracts/dao-dao-core/src/contract.rs:234-267. -/
def nominateAdmin (s : State) (sender : Addr) (nomination : Option Addr) : Res (State × List Sub) := do
  require (decide (s.admin = sender)) .unauthorized
  require (s.nominated.isNone) .invalid
  match nomination with
  | some n => .ok ({ s with nominated := some n }, [])
  | none => .ok ({ s with admin := s.me }, [])

/-- `execute_accept_admin_nomination`, contracts/dao-dao-core/src/contract.rs:269-285. -/
def acceptAdmin (s : State) (sender : Addr) : Res (State × List Sub) := do
  let n ← orErr s.nominated .notFound
  require (decide (sender = n)) .unauthorized
  .ok ({ s with nominated := none, admin := n }, [])

/-- `execute_withdraw_admin_nomination`, contracts/dao-dao-core/src/contract.rs:287-307. -/
def withdrawAdmin (s : State) (sender : Addr) : Res (State × List Sub) := do
  require (decide (s.admin = sender)) .unauthorized
  require (s.nominated.isSome) .notFound
  .ok ({ s with nominated := none }, [])

/-- `execute_update_config`, contracts/dao-dao-core/src/contract.rs:309-333. -/
def updateConfig (s : State) (sender : Addr) (c : Config) : Res (State × List Sub) := do
  require (decide (sender = s.me)) .unauthorized
  .ok ({ s with config := c }, [])

/-- `execute_update_voting_module`, contracts/dao-dao-core/src/contract.rs:335-350. -/
def updateVoting (s : State) (sender : Addr) (info : Nat) : Res (State × List Sub) := do
  require (decide (s.me = sender)) .unauthorized
  .ok (s, [.create .votingModuleUpdate info])

/-- The loop of `execute_update_proposal_modules`. -/
def disableAll (m : AMap Addr Module) : List Addr → Res (AMap Addr Module)
  | [] => .ok m
  | a :: rest => do
    let p ← orErr (m.get a) .notFound
    require p.enabled .invalid
    disableAll (m.set a { p with enabled := false }) rest

/-- `execute_update_proposal_modules`, contracts/dao-dao-core/src/contract.rs:352-401. `len() as u32` keeps the low 32
bits; the subtraction panics when it underflows. -/
def updateModules (s : State) (sender : Addr) (add : List Nat) (disable : List Addr) : Res (State × List Sub) := do
  require (decide (s.me = sender)) .unauthorized
  let ms ← disableAll s.modules disable
  require (!(decide (s.active ≤ disable.length % U32) && add.isEmpty)) .invalid
  require (decide (disable.length % U32 ≤ s.active)) .overflow
  .ok ({ s with modules := ms, active := s.active - disable.length % U32 }, add.map (Sub.create .proposalModule))

/-- The first loop of `do_update_addr_list`. -/
def addAddrs (verify : Addr → Bool) (m : AMap Addr Unit) : List Addr → Res (AMap Addr Unit)
  | [] => .ok m
  | a :: rest => do
    require (verify a) .invalid
    addAddrs verify (m.set a ()) rest

/-- The loops that remove addresses. -/
def removeAddrs {V : Type} (m : AMap Addr V) : List Addr → AMap Addr V
  | [] => m
  | a :: rest => removeAddrs (m.erase a) rest

/-- `do_update_addr_list`, contracts/dao-dao-core/src/contract.rs:405-431. -/
def updateAddrs (verify : Addr → Bool) (m : AMap Addr Unit) (add remove : List Addr) : Res (AMap Addr Unit) := do
  let m ← addAddrs verify m add
  .ok (removeAddrs m remove)

/-- `execute_update_cw20_list`, contracts/dao-dao-core/src/contract.rs:433-455. -/
def updateCw20s (s : State) (e : Env) (sender : Addr) (add remove : List Addr) : Res (State × List Sub) := do
  require (decide (s.me = sender)) .unauthorized
  let m ← updateAddrs e.isCw20 s.cw20s add remove
  .ok ({ s with cw20s := m }, [])

/-- `execute_update_cw721_list`, contracts/dao-dao-core/src/contract.rs:457-474. -/
def updateCw721s (s : State) (e : Env) (sender : Addr) (add remove : List Addr) : Res (State × List Sub) := do
  require (decide (s.me = sender)) .unauthorized
  let m ← updateAddrs e.isCw721 s.cw721s add remove
  .ok ({ s with cw721s := m }, [])

/-- `execute_set_item`, contracts/dao-dao-core/src/contract.rs:476-492. -/
def setItem (s : State) (sender : Addr) (k v : Nat) : Res (State × List Sub) := do
  require (decide (s.me = sender)) .unauthorized
  .ok ({ s with items := s.items.set k v }, [])

/-- `execute_remove_item`, contracts/dao-dao-core/src/contract.rs:494-512. -/
def removeItem (s : State) (sender : Addr) (k : Nat) : Res (State × List Sub) := do
  require (decide (s.me = sender)) .unauthorized
  require (s.items.get k).isSome .notFound
  .ok ({ s with items := s.items.erase k }, [])

/-- The loop of `execute_update_sub_daos_list` that adds. -/
def addSubDaos (m : AMap Addr (Option Nat)) : List (Addr × Option Nat) → AMap Addr (Option Nat)
  | [] => m
  | (a, c) :: rest => addSubDaos (m.set a c) rest

/-- `execute_update_sub_daos_list`, contracts/dao-dao-core/src/contract.rs:514-538. Removes first, then adds. -/
def updateSubDaos (s : State) (sender : Addr) (add : List (Addr × Option Nat)) (remove : List Addr) :
    Res (State × List Sub) := do
  require (decide (s.me = sender)) .unauthorized
  .ok ({ s with subDaos := addSubDaos (removeAddrs s.subDaos remove) add }, [])

/-- `execute_receive_cw20`, contracts/dao-dao-core/src/contract.rs:540-550. -/
def receiveCw20 (s : State) (sender : Addr) : Res (State × List Sub) :=
  if s.config.autoCw20 then .ok ({ s with cw20s := s.cw20s.set sender () }, []) else .ok (s, [])

/-- `execute_receive_cw721`, contracts/dao-dao-core/src/contract.rs:552-562. -/
def receiveCw721 (s : State) (sender : Addr) : Res (State × List Sub) :=
  if s.config.autoCw721 then .ok ({ s with cw721s := s.cw721s.set sender () }, []) else .ok (s, [])

/-- The first check of `execute`: is the DAO paused in this block? -/
def isPaused (s : State) (b : Block) : Bool :=
  match s.paused with
  | some x => !x.isExpired b
  | none => false

/-- The `match` of `execute`, contracts/dao-dao-core/src/contract.rs:121-159. -/
def dispatch (s : State) (e : Env) (sender : Addr) : Msg → Res (State × List Sub)
  | .executeAdminMsgs msgs => adminMsgs s sender msgs
  | .executeProposalHook msgs => proposalHook s sender msgs
  | .pause d => pause s e sender d
  | .unpause => unpause s sender
  | .receive => receiveCw20 s sender
  | .receiveNft => receiveCw721 s sender
  | .removeItem k => removeItem s sender k
  | .setItem k v => setItem s sender k v
  | .updateConfig c => updateConfig s sender c
  | .updateCw20List a r => updateCw20s s e sender a r
  | .updateCw721List a r => updateCw721s s e sender a r
  | .updateVotingModule i => updateVoting s sender i
  | .updateProposalModules a d => updateModules s sender a d
  | .nominateAdmin n => nominateAdmin s sender n
  | .acceptAdminNomination => acceptAdmin s sender
  | .withdrawAdminNomination => withdrawAdmin s sender
  | .updateSubDaos a r => updateSubDaos s sender a r

/-- `execute`, contracts/dao-dao-core/src/contract.rs:103-160. -/
def execute (s : State) (e : Env) (sender : Addr) (m : Msg) : Res (State × List Sub) := do
  require (!(isPaused s e.block) || decide (sender = s.me) || decide (sender = s.admin)) .unauthorized
  dispatch s e sender m

/-- What the chain and the new contract report in a reply: its address, which the chain has given to no other contract,
and the messages in its `ModuleInstantiateCallback`. -/
structure Created where
  address : Addr
  callbacks : List CosmosMsg

/-- `reply` for a proposal module, contracts/dao-dao-core/src/contract.rs:956-990. -/
def replyProposal (s : State) (c : Created) : Res (State × List Sub) := do
  require (decide (s.active + 1 < U32)) .overflow
  require (decide (s.total + 1 < U32)) .overflow
  .ok ({ s with
    modules := s.modules.set c.address ⟨c.address, derivePrefix s.total, true⟩
    active := s.active + 1
    total := s.total + 1 }, c.callbacks.map .send)

/-- `reply` for the first voting module, contracts/dao-dao-core/src/contract.rs:992-1015. -/
def replyVoting (s : State) (c : Created) : Res (State × List Sub) := do
  require s.voting.isNone .invalid
  .ok ({ s with voting := some c.address }, c.callbacks.map .send)

/-- `reply` for a new voting module, contracts/dao-dao-core/src/contract.rs:1016-1023. Callbacks are not read. -/
def replyVotingUpdate (s : State) (c : Created) : Res (State × List Sub) :=
  .ok ({ s with voting := some c.address }, [])

/-- `reply`, contracts/dao-dao-core/src/contract.rs:953-1022. -/
def reply (s : State) (role : Role) (c : Created) : Res (State × List Sub) :=
  match role with
  | .proposalModule => replyProposal s c
  | .votingModule => replyVoting s c
  | .votingModuleUpdate => replyVotingUpdate s c

/-- The DAO and the submessages it still has to send, the next one first. A transaction ends when none are left; what a
message makes the DAO send is sent before what was waiting. -/
structure World where
  core : State
  stack : List Sub

/-- Steps: someone calls the DAO, at any time, also while a message of the DAO is being carried out; or the chain
carries out the next submessage. `c` is what the reply says if that is an instantiation. -/
inductive Call where
  | call (sender : Addr) (m : Msg)
  | deliver (c : Created)

/-- A step. Nobody else has the DAO's own address; new contracts have new addresses. -/
def step (w : World) (e : Env) : Call → Res (World × List Sub)
  | .call sender m => do
    require (decide (sender ≠ w.core.me)) .invalid
    let (s, out) ← execute w.core e sender m
    .ok (⟨s, out ++ w.stack⟩, out)
  | .deliver c =>
    match w.stack with
    | [] => .error .invalid
    | .create role _ :: rest => do
      require (decide (c.address ≠ w.core.me)) .invalid
      require (w.core.modules.get c.address).isNone .invalid
      let (s, out) ← reply w.core role c
      .ok (⟨s, out ++ rest⟩, out)
    | .send (.toSelf m) :: rest => do
      let (s, out) ← execute w.core e w.core.me m
      .ok (⟨s, out ++ rest⟩, out)
    | .send (.other _) :: rest => .ok (⟨w.core, rest⟩, [])

/-- The modules after `MigrateMsg::FromV1`: `address` is the `idx`th module of the old version. -/
def migrateModules : Nat → List Addr → AMap Addr Module
  | _, [] => []
  | idx, a :: rest => (a, ⟨a, derivePrefix idx, true⟩) :: migrateModules (idx + 1) rest

/-- The message of `migrate` that adds the migrator as a proposal module. -/
def migrator : Option Nat → List Sub
  | some i => [.send (.toSelf (.updateProposalModules [i] []))]
  | none => []

/-- `migrate` with `FromV1`, contracts/dao-dao-core/src/contract.rs:872-950: what it makes of a DAO of the old version,
whose modules are `keys`. `FromCompatible` changes nothing and is no step. -/
def migrate (old : State) (keys : List Addr) (params : Option Nat) : State × List Sub :=
  ({ old with modules := migrateModules 0 keys, active := keys.length % U32, total := keys.length % U32 },
    migrator params)

/-- First states: a new DAO, or one migrated from the old version, which had at least one proposal module, each with an
address of its own. -/
inductive Init : Block → World → Prop where
  | new {b : Block} {me : Addr} {config : Config} {admin : Option Addr} {voting : Nat} {proposals : List Nat}
      {items : List (Nat × Nat)} {s : State} {out : List Sub}
      (h : instantiate me config admin voting proposals items = .ok (s, out)) : Init b ⟨s, out⟩
  | migrated {b : Block} {old : State} {keys : List Addr} {params : Option Nat} (hk : keys.Nodup) (h0 : keys ≠ [])
      (hl : keys.length < U32) (hm : old.me ∉ keys) (hi : AMap.WF old.items) (h20 : AMap.WF old.cw20s)
      (h721 : AMap.WF old.cw721s) (hs : old.subDaos = []) :
      Init b ⟨(migrate old keys params).1, (migrate old keys params).2⟩

/-- The system. -/
def sys : Sys World Env Call (List Sub) where
  init := Init
  block := Env.block
  step := step

/-- An event of a history. -/
abbrev Event := Ev World Env Call (List Sub)

end Verif.DaoCore
