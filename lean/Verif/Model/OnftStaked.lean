import Verif.Model.NftStaked
/-!
# Model of `contracts/voting/dao-voting-onft-staked`

The contract stakes NFTs of a collection of OmniFlix's x/onft module, where a transfer cannot call a
contract: the owner prepares a stake, transfers the NFT and confirms. Everything but that is the code of
dao-voting-cw721-staked once more, with the same storage; the model reuses the definitions of
`Verif.Model.NftStaked` for it, each with the lines of this contract. The simplifications are those of that
model. The x/onft module behaves as documented: an NFT has one owner, only the owner transfers or burns it,
ids are not reused while the NFT exists. Token ids are numbers and sorted as numbers, which matters only for
the order of messages to the hooks. The recipient in `CancelStake` is a valid address (the contract does not
check, the module does).
-/

namespace Verif.OnftStaked
open Verif Verif.Active

/-- What a call sends. -/
abbrev Out := NftStaked.Out

/-- The contract with the owners of the NFTs in the collection: `n` is the part that the contract shares with
dao-voting-cw721-staked (contracts/voting/dao-voting-onft-staked/src/state.rs:11-57, where `n.c.nft` is the
collection), `prepared` is `PREPARED_ONFTS`, state.rs:28. -/
structure World where
  n : NftStaked.World
  prepared : AMap Tok Addr
  deriving DecidableEq, Repr

/-- `ExecuteMsg`, contracts/voting/dao-voting-onft-staked/src/msg.rs:28-94. -/
inductive Msg where
  | prepareStake (tokens : List Tok)
  | confirmStake (tokens : List Tok)
  | cancelStake (tokens : List Tok) (recipient : Option Addr)
  | unstake (tokens : List Tok)
  | claimNfts
  | updateConfig (duration : Option Duration)
  | addHook (a : Addr)
  | removeHook (a : Addr)
  | updateActiveThreshold (t : Option ActiveThreshold)
  deriving DecidableEq, Repr

/-- Insert into a sorted list unless it is there. -/
def insertTok (t : Tok) : List Tok → List Tok
  | [] => [t]
  | x :: xs => if t < x then t :: x :: xs else if t = x then x :: xs else x :: insertTok t xs

/-- `sort` and `dedup`, contracts/voting/dao-voting-onft-staked/src/contract.rs:154-155. -/
def sortDedup : List Tok → List Tok
  | [] => []
  | t :: ts => insertTok t (sortDedup ts)

/-- `query_onft_owner` for every id, contracts/voting/dao-voting-onft-staked/src/omniflix.rs:4-12; an unknown
id is an error. -/
def queryOwners (owners : AMap Tok Addr) : List Tok → Res (List Addr)
  | [] => .ok []
  | t :: ts => do
    let o ← orErr (owners.get t) .notFound
    let os ← queryOwners owners ts
    .ok (o :: os)

/-- The saving loop of `execute_prepare_stake`,
contracts/voting/dao-voting-onft-staked/src/contract.rs:135-137. -/
def prepareAll (p : AMap Tok Addr) (sender : Addr) : List Tok → AMap Tok Addr
  | [] => p
  | t :: ts => prepareAll (p.set t sender) sender ts

/-- `execute_prepare_stake`, contracts/voting/dao-voting-onft-staked/src/contract.rs:110-143. -/
def execPrepare (w : World) (sender : Addr) (ts : List Tok) : Res World := do
  let os ← queryOwners w.n.owners ts
  require (os.all (fun o => decide (o = sender))) .unauthorized
  .ok { w with prepared := prepareAll w.prepared sender ts }

/-- The removals of preparations in `register_staked_nfts`,
contracts/voting/dao-voting-onft-staked/src/state.rs:72-73. -/
def unprepareAll (p : AMap Tok Addr) : List Tok → AMap Tok Addr
  | [] => p
  | t :: ts => unprepareAll (p.erase t) ts

/-- The new entries in `register_staked_nfts`,
contracts/voting/dao-voting-onft-staked/src/state.rs:72-75. -/
def stakeAll (m : AMap (Addr × Tok) Unit) (staker : Addr) : List Tok → AMap (Addr × Tok) Unit
  | [] => m
  | t :: ts => stakeAll (m.set (staker, t) ()) staker ts

/-- `register_staked_nfts`, contracts/voting/dao-voting-onft-staked/src/state.rs:59-81. -/
def registerStaked (s : NftStaked.State) (h : Nat) (staker : Addr) (ts : List Tok) :
    Res NftStaked.State := do
  let x ← add128 (s.balanceOf staker) ts.length
  let n ← add128 s.total ts.length
  .ok { s with staked := stakeAll s.staked staker ts
               balances := s.balances.save staker x h
               totalStaked := s.totalStaked.save () n h }

/-- `execute_confirm_stake`, contracts/voting/dao-voting-onft-staked/src/contract.rs:145-196: one message per
NFT to every hook. -/
def execConfirm (w : World) (b : Block) (sender : Addr) (ts : List Tok) : Res (World × Out) := do
  let ids := sortDedup ts
  let os ← queryOwners w.n.owners ids
  require (ids.all (fun t => decide (w.prepared.get t = some sender)) &&
    os.all (fun o => decide (o = w.n.self))) .invalid
  let c ← registerStaked w.n.c b.height sender ids
  .ok ({ w with n := { w.n with c := c }, prepared := unprepareAll w.prepared ids },
    { hooks := (ids.map (fun t => NftStaked.hookMsgs w.n.c.hooks true sender [t])).flatten })

/-- The ids with their owners and preparers, read before anything is changed,
contracts/voting/dao-voting-onft-staked/src/contract.rs:227-236. -/
def withPreparers (p : AMap Tok Addr) : List Tok → List Addr → List (Tok × Addr × Option Addr)
  | t :: ts, o :: os => (t, o, p.get t) :: withPreparers p ts os
  | _, _ => []

/-- The loop for the DAO in `execute_cancel_stake`,
contracts/voting/dao-voting-onft-staked/src/contract.rs:243-268: the preparations left and the transfers. -/
def cancelByDao (self : Addr) (recipient : Option Addr) :
    List (Tok × Addr × Option Addr) → AMap Tok Addr → Res (AMap Tok Addr × List (Addr × Tok))
  | [], p => .ok (p, [])
  | (t, o, q) :: rest, p =>
    let p1 := if q.isSome then p.erase t else p
    if o = self then do
      let r ← orErr (recipient.or q) .invalid
      let x ← cancelByDao self recipient rest p1
      .ok (x.1, (r, t) :: x.2)
    else cancelByDao self recipient rest p1

/-- The loop for everybody else in `execute_cancel_stake`,
contracts/voting/dao-voting-onft-staked/src/contract.rs:269-292. -/
def cancelByUser (self sender : Addr) :
    List (Tok × Addr × Option Addr) → AMap Tok Addr → Res (AMap Tok Addr × List (Addr × Tok))
  | [], p => .ok (p, [])
  | (t, o, q) :: rest, p => do
    require (decide (sender = o ∨ q = some sender)) .unauthorized
    if o = self then do
      let r ← orErr q .panic
      let x ← cancelByUser self sender rest (p.erase t)
      .ok (x.1, (r, t) :: x.2)
    else cancelByUser self sender rest (p.erase t)

/-- `execute_cancel_stake`, contracts/voting/dao-voting-onft-staked/src/contract.rs:216-302. -/
def execCancel (w : World) (sender : Addr) (ts : List Tok) (recipient : Option Addr) : Res (World × Out) := do
  let os ← queryOwners w.n.owners ts
  let l := withPreparers w.prepared ts os
  let x ← if sender = w.n.c.dao then cancelByDao w.n.self recipient l w.prepared
    else cancelByUser w.n.self sender l w.prepared
  .ok ({ w with prepared := x.1 }, { send := x.2 })

/-- The calls whose code is that of dao-voting-cw721-staked: `execute_unstake`, `execute_claim_nfts`,
`execute_update_config`, `execute_add_hook`, `execute_remove_hook`, `execute_update_active_threshold`,
contracts/voting/dao-voting-onft-staked/src/contract.rs:304-527, and `register_unstaked_nfts`,
state.rs:87-118. -/
def Msg.shared : Msg → Option NftStaked.Msg
  | .unstake ts => some (.unstake ts)
  | .claimNfts => some .claimNfts
  | .updateConfig d => some (.updateConfig d)
  | .addHook a => some (.addHook a)
  | .removeHook a => some (.removeHook a)
  | .updateActiveThreshold t => some (.updateActiveThreshold t)
  | .prepareStake _ => none
  | .confirmStake _ => none
  | .cancelStake _ _ => none

/-- A shared call. -/
def execShared (w : World) (b : Block) (sender : Addr) (m : NftStaked.Msg) : Res (World × Out) := do
  let r ← NftStaked.exec w.n.c b w.n.owners.length sender m
  .ok ({ w with n := { w.n with c := r.1 } }, r.2)

/-- `execute`, contracts/voting/dao-voting-onft-staked/src/contract.rs:86-108. -/
def exec (w : World) (b : Block) (sender : Addr) : Msg → Res (World × Out)
  | .prepareStake ts => do
    let w' ← execPrepare w sender ts
    .ok (w', {})
  | .confirmStake ts => execConfirm w b sender ts
  | .cancelStake ts r => execCancel w sender ts r
  | .unstake ts => execShared w b sender (.unstake ts)
  | .claimNfts => execShared w b sender .claimNfts
  | .updateConfig d => execShared w b sender (.updateConfig d)
  | .addHook a => execShared w b sender (.addHook a)
  | .removeHook a => execShared w b sender (.removeHook a)
  | .updateActiveThreshold t => execShared w b sender (.updateActiveThreshold t)

/-- `query_voting_power_at_height`, contracts/voting/dao-voting-onft-staked/src/contract.rs:623-635. -/
def power (w : World) (now : Block) (a : Addr) (h : Option Nat) : Nat × Nat :=
  let x := h.getD now.height
  ((w.n.c.balances.atHeight a x).getD 0, x)

/-- `query_total_power_at_height`, contracts/voting/dao-voting-onft-staked/src/contract.rs:637-643. -/
def totalPower (w : World) (now : Block) (h : Option Nat) : Nat × Nat :=
  let x := h.getD now.height
  ((w.n.c.totalStaked.atHeight () x).getD 0, x)

/-- `query_is_active`, contracts/voting/dao-voting-onft-staked/src/contract.rs:557-621. -/
def active (w : World) (now : Block) : Res Bool :=
  isActiveNft w.n.c.threshold (totalPower w now none).1 w.n.owners.length

/-- `query_staked_nfts`, contracts/voting/dao-voting-onft-staked/src/contract.rs:668-689, without paging. -/
def stakedNfts (w : World) (a : Addr) : List Tok := w.n.c.stakedNfts a

/-! ## The contract over the x/onft module -/

/-- Transactions: a call of the contract; a transfer, a mint and a burn of an NFT of the collection. -/
inductive Call where
  | exec (sender : Addr) (m : Msg)
  | transfer (sender dst : Addr) (token : Tok)
  | mint (dst : Addr) (token : Tok)
  | burn (sender : Addr) (token : Tok)
  deriving DecidableEq, Repr

/-- One transaction. The contract sends no message of its own accord. Transfers by the contract
(`get_onft_transfer_msg`, contracts/voting/dao-voting-onft-staked/src/omniflix.rs:19-32) fail unless it owns
the NFT. -/
def step (w : World) (b : Block) : Call → Res (World × Out)
  | .exec sender m => do
    require (decide (sender ≠ w.n.self)) .unauthorized
    let r ← exec w b sender m
    let o ← NftStaked.giveBack w.n.owners w.n.self r.2.send
    .ok ({ r.1 with n := { r.1.n with owners := o } }, r.2)
  | .transfer sender dst t => do
    require (decide (w.n.owners.get t = some sender ∧ sender ≠ w.n.self)) .unauthorized
    .ok ({ w with n := { w.n with owners := w.n.owners.set t dst } }, {})
  | .mint dst t => do
    require (decide (w.n.owners.get t = none ∧ w.n.owners.length + 1 < U64)) .invalid
    .ok ({ w with n := { w.n with owners := w.n.owners.set t dst } }, {})
  | .burn sender t => do
    require (decide (w.n.owners.get t = some sender ∧ sender ≠ w.n.self)) .unauthorized
    .ok ({ w with n := { w.n with owners := w.n.owners.erase t } }, {})

/-- The transition system: any instantiation, contracts/voting/dao-voting-onft-staked/src/contract.rs:34-83,
over any collection. -/
def sys : Sys World Block Call Out where
  init b w := w.prepared = [] ∧ AMap.WF w.n.owners ∧ w.n.owners.length < U64 ∧
    ∃ dao coll d t, NftStaked.instantiate b dao coll (some w.n.owners.length) d t = .ok w.n.c
  block b := b
  step := step

end Verif.OnftStaked
