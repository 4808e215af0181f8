import Verif.Model.DaoCore
import Verif.Spec.Paginate
/-!
# Specification vocabulary for dao-dao-core
-/

namespace Verif.Spec.DaoCore
open Verif.DaoCore

/-- The submessage an event carried out, if it carried out one. -/
def delivered (e : Event) : List Sub :=
  match e.call with
  | .deliver _ => e.pre.stack.take 1
  | .call _ _ => []

/-- The messages carried out in a history. -/
def deliveredAll (log : List Event) : List Sub := (log.map delivered).flatten

/-- The messages the DAO handed out in a history to be carried out. -/
def handedOut (log : List Event) : List Sub := (log.map (fun e => e.out)).flatten

/-- Who called the DAO in an event, and with what: someone else, or the DAO itself by one of its messages. -/
def handled (e : Event) : Option (Addr × Msg) :=
  match e.call with
  | .call sender m => some (sender, m)
  | .deliver _ =>
    match e.pre.stack with
    | .send (.toSelf m) :: _ => some (e.pre.core.me, m)
    | _ => none

/-- The module the chain created for the DAO in an event: what for, and what it reported. -/
def created (e : Event) : Option (Role × Created) :=
  match e.call with
  | .call _ _ => none
  | .deliver c =>
    match e.pre.stack with
    | .create role _ :: _ => some (role, c)
    | _ => none

/-- An address is an enabled proposal module. -/
def Enabled (s : State) (a : Addr) : Prop := ∃ m, s.modules.get a = some m ∧ m.enabled = true

/-- The number of enabled proposal modules. -/
def enabledCount (s : State) : Nat := (s.modules.filter (fun p => p.2.enabled)).length

/-- The DAO is paused in a block. -/
def Paused (s : State) (b : Block) : Prop := ∃ x, s.paused = some x ∧ x.isExpired b = false

/-- What the DAO may send in an event. -/
inductive MaySend (e : Event) : Sub → Prop where
  /-- an enabled proposal module passes on the messages of a proposal -/
  | hook {a : Addr} {msgs : List CosmosMsg} {m : CosmosMsg} (h : handled e = some (a, .executeProposalHook msgs))
      (ha : Enabled e.pre.core a) (hm : m ∈ msgs) : MaySend e (.send m)
  /-- the admin sends messages -/
  | admin {msgs : List CosmosMsg} {m : CosmosMsg} (h : handled e = some (e.pre.core.admin, .executeAdminMsgs msgs))
      (hm : m ∈ msgs) : MaySend e (.send m)
  /-- a module that the DAO just created asks for messages to be sent -/
  | callback {role : Role} {c : Created} {m : CosmosMsg} (h : created e = some (role, c)) (hr : role ≠ .votingModuleUpdate)
      (hm : m ∈ c.callbacks) : MaySend e (.send m)
  /-- the DAO replaces its voting module -/
  | voting {i : Nat} (h : handled e = some (e.pre.core.me, .updateVotingModule i)) :
      MaySend e (.create .votingModuleUpdate i)
  /-- the DAO adds proposal modules -/
  | proposal {add : List Nat} {dis : List Addr} {i : Nat}
      (h : handled e = some (e.pre.core.me, .updateProposalModules add dis)) (hi : i ∈ add) :
      MaySend e (.create .proposalModule i)

/-- An item after a history (newest event first): the last thing done to its key. -/
def itemAfter (s0 : State) (k : Nat) : List Event → Option Nat
  | [] => s0.items.get k
  | e :: rest =>
    match handled e with
    | some (_, .setItem k' v) => if k' = k then some v else itemAfter s0 k rest
    | some (_, .removeItem k') => if k' = k then none else itemAfter s0 k rest
    | _ => itemAfter s0 k rest

/-- Is a cw20 token on the list after a history: the last thing done to it; removals of an update win. -/
def cw20After (s0 : State) (a : Addr) : List Event → Prop
  | [] => (s0.cw20s.get a).isSome = true
  | e :: rest =>
    match handled e with
    | some (_, .updateCw20List add rem) => a ∉ rem ∧ (a ∈ add ∨ cw20After s0 a rest)
    | some (sender, .receive) => (sender = a ∧ e.pre.core.config.autoCw20 = true) ∨ cw20After s0 a rest
    | _ => cw20After s0 a rest

/-- The same for NFT collections. -/
def cw721After (s0 : State) (a : Addr) : List Event → Prop
  | [] => (s0.cw721s.get a).isSome = true
  | e :: rest =>
    match handled e with
    | some (_, .updateCw721List add rem) => a ∉ rem ∧ (a ∈ add ∨ cw721After s0 a rest)
    | some (sender, .receiveNft) => (sender = a ∧ e.pre.core.config.autoCw721 = true) ∨ cw721After s0 a rest
    | _ => cw721After s0 a rest

/-- The last charter given for an address in a list of SubDAOs. -/
def lastCharter (a : Addr) : List (Addr × Option Nat) → Option (Option Nat)
  | [] => none
  | (b, c) :: rest =>
    match lastCharter a rest with
    | some x => some x
    | none => if b = a then some c else none

/-- A SubDAO after a history: `none` if it is not listed, else its charter. Additions of an update win. -/
def subDaoAfter (s0 : State) (a : Addr) : List Event → Option (Option Nat)
  | [] => s0.subDaos.get a
  | e :: rest =>
    match handled e with
    | some (_, .updateSubDaos add rem) =>
      match lastCharter a add with
      | some c => some c
      | none => if a ∈ rem then none else subDaoAfter s0 a rest
    | _ => subDaoAfter s0 a rest

end Verif.Spec.DaoCore
