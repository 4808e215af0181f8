import Verif.Model.Cw20Stake
import Verif.Model.ActiveThreshold
import Verif.Model.NftClaims
/-!
# Model of `contracts/voting/dao-voting-cw721-staked`

The contract is modelled together with the NFT contract's record of owners. Simplifications, all of them:
addresses validate; event attributes, the cw2 version, `migrate` and the order and paging of the list of
staked NFTs are dropped (paging is studied in `Verif.Model.Paginate`). The NFT contract behaves as cw721
does: a token has one owner, moves only on a message of its owner or somebody the owner approved, and a
`SendNft` moves it and then calls the receiver with the name of the sender of the message. Who is approved
for a token is not recorded: every message by anybody about a token that the staking contract does not own
is allowed; the staking contract approves nobody. Minting needs a fresh token id. Hook receivers are other
contracts: the messages sent to them are recorded, their own calls to this contract are later steps of the
history.
-/

namespace Verif.NftStaked
open Verif Verif.Active
open Verif.Cw20Stake (validateDuration)

/-- The storage of the contract, contracts/voting/dao-voting-cw721-staked/src/state.rs:11-51, without
`INITIAL_NFTS`, which is empty after instantiation. -/
structure State where
  dao : Addr
  nft : Addr
  unstakingDuration : Option Duration
  staked : AMap (Addr × Tok) Unit
  balances : Snap Addr Nat
  totalStaked : Snap Unit Nat
  claims : NftClaims
  threshold : Option ActiveThreshold
  hooks : Hooks.HookList
  deriving DecidableEq, Repr

/-- `MAX_CLAIMS`, contracts/voting/dao-voting-cw721-staked/src/state.rs:46. -/
def MAX_CLAIMS : Nat := 70

/-- `ExecuteMsg`, contracts/voting/dao-voting-cw721-staked/src/msg.rs:48-73. -/
inductive Msg where
  | receiveNft (sender : Addr) (token : Tok)
  | unstake (tokens : List Tok)
  | claimNfts
  | updateConfig (duration : Option Duration)
  | addHook (a : Addr)
  | removeHook (a : Addr)
  | updateActiveThreshold (t : Option ActiveThreshold)
  deriving DecidableEq, Repr

/-- `NftStakeChangedHookMsg` to one receiver, packages/dao-hooks/src/nft_stake.rs:7-10. -/
structure HookMsg where
  to : Addr
  isStake : Bool
  staker : Addr
  tokens : List Tok
  deriving DecidableEq, Repr

/-- `stake_nft_hook_msgs` and `unstake_nft_hook_msgs`, packages/dao-hooks/src/nft_stake.rs:14-54. -/
def hookMsgs (h : Hooks.HookList) (isStake : Bool) (a : Addr) (ts : List Tok) : List HookMsg :=
  Hooks.prepareHooks h (fun _ to => ⟨to, isStake, a, ts⟩)

/-- What a call sends: `TransferNft` messages to the NFT contract, and messages to the hooks. -/
structure Out where
  send : List (Addr × Tok) := []
  hooks : List HookMsg := []
  deriving DecidableEq, Repr

/-- `TOTAL_STAKED_NFTS`, `unwrap_or_default`. -/
def State.total (s : State) : Nat := (s.totalStaked.get ()).getD 0

/-- `NFT_BALANCES` of an address, `unwrap_or_default`. -/
def State.balanceOf (s : State) (a : Addr) : Nat := (s.balances.get a).getD 0

/-- `query_staked_nfts`, contracts/voting/dao-voting-cw721-staked/src/contract.rs:622-643, without paging. -/
def State.stakedNfts (s : State) (a : Addr) : List Tok :=
  (s.staked.filter (fun e => decide (e.1.1 = a))).map (fun e => e.1.2)

/-- The validation of a threshold, contracts/voting/dao-voting-cw721-staked/src/contract.rs:83-107 and
457-471. Without a supply (a collection made by a factory) a count is not checked. -/
def checkThreshold (t : Option ActiveThreshold) (supply : Option Nat) : Res Unit :=
  match t, supply with
  | some (.percentage p), _ => assertValidPercentage p
  | some (.absolute n), some k => assertValidCount n k
  | some (.absolute _), none => .ok ()
  | none, _ => .ok ()

/-- `instantiate`, contracts/voting/dao-voting-cw721-staked/src/contract.rs:69-195, with the checks of
`reply`, contract.rs:709-740. With a new collection the checks come in the reply, on the supply after the
initial mints; with a factory there is no supply. -/
def instantiate (b : Block) (dao nft : Addr) (supply : Option Nat) (d : Option Duration)
    (t : Option ActiveThreshold) : Res State := do
  validateDuration d
  checkThreshold t supply
  .ok { dao := dao, nft := nft, unstakingDuration := d, staked := [], balances := Snap.empty,
        totalStaked := Snap.empty.save () 0 b.height, claims := [], threshold := t, hooks := none }

/-- `register_staked_nft`, contracts/voting/dao-voting-cw721-staked/src/state.rs:53-70. -/
def registerStaked (s : State) (h : Nat) (staker : Addr) (t : Tok) : Res State := do
  let x ← add128 (s.balanceOf staker) 1
  let n ← add128 s.total 1
  .ok { s with staked := s.staked.set (staker, t) ()
               balances := s.balances.save staker x h
               totalStaked := s.totalStaked.save () n h }

/-- The loop of `register_unstaked_nfts`,
contracts/voting/dao-voting-cw721-staked/src/state.rs:90-99. -/
def removeAll (m : AMap (Addr × Tok) Unit) (staker : Addr) : List Tok → Res (AMap (Addr × Tok) Unit)
  | [] => .ok m
  | t :: ts =>
    match m.get (staker, t) with
    | some _ => removeAll (m.erase (staker, t)) staker ts
    | none => .error .notFound

/-- `register_unstaked_nfts`, contracts/voting/dao-voting-cw721-staked/src/state.rs:76-107. -/
def registerUnstaked (s : State) (h : Nat) (staker : Addr) (ts : List Tok) : Res State := do
  let m ← removeAll s.staked staker ts
  let oldTotal ← orErr (s.totalStaked.get ()) .panic
  let n ← sub128 oldTotal ts.length
  let old ← orErr (s.balances.get staker) .panic
  let x ← sub128 old ts.length
  .ok { s with staked := m
               balances := s.balances.save staker x h
               totalStaked := s.totalStaked.save () n h }

/-- `execute_stake`, contracts/voting/dao-voting-cw721-staked/src/contract.rs:217-243. -/
def execStake (s : State) (b : Block) (caller staker : Addr) (t : Tok) : Res (State × Out) := do
  require (decide (caller = s.nft)) .unauthorized
  let s' ← registerStaked s b.height staker t
  .ok (s', { hooks := hookMsgs s.hooks true staker [t] })

/-- The end of `execute_unstake`, contracts/voting/dao-voting-cw721-staked/src/contract.rs:290-339: return
at once or create claims. -/
def release (s : State) (b : Block) (a : Addr) (ts : List Tok) (hooks : List HookMsg) : Res (State × Out) :=
  match s.unstakingDuration with
  | none => .ok (s, { send := ts.map (fun t => (a, t)), hooks := hooks })
  | some d =>
    if (s.claims.of a).length + ts.length > MAX_CLAIMS then .error (.custom 1)
    else .ok ({ s with claims := s.claims.create a ts (d.after b) }, { hooks := hooks })

/-- `execute_unstake`, contracts/voting/dao-voting-cw721-staked/src/contract.rs:245-340. -/
def execUnstake (s : State) (b : Block) (sender : Addr) (ts : List Tok) : Res (State × Out) := do
  require (decide (ts ≠ [])) .invalid
  let s' ← registerUnstaked s b.height sender ts
  release s' b sender ts (hookMsgs s.hooks false sender ts)

/-- `execute_claim_nfts`, contracts/voting/dao-voting-cw721-staked/src/contract.rs:342-373. -/
def execClaim (s : State) (b : Block) (sender : Addr) : Res (State × Out) := do
  let r := s.claims.claim sender b
  require (decide (r.2 ≠ [])) .invalid
  .ok ({ s with claims := r.1 }, { send := r.2.map (fun t => (sender, t)) })

/-- `execute`, contracts/voting/dao-voting-cw721-staked/src/contract.rs:198-215, with
`execute_update_config`, `execute_add_hook`, `execute_remove_hook` and `execute_update_active_threshold`,
contract.rs:375-478. `supply` is the NFT contract's number of tokens. -/
def exec (s : State) (b : Block) (supply : Nat) (sender : Addr) : Msg → Res (State × Out)
  | .receiveNft staker t => execStake s b sender staker t
  | .unstake ts => execUnstake s b sender ts
  | .claimNfts => execClaim s b sender
  | .updateConfig d => do
    require (decide (sender = s.dao)) .unauthorized
    validateDuration d
    .ok ({ s with unstakingDuration := d }, {})
  | .addHook a => do
    require (decide (sender = s.dao)) .unauthorized
    let h ← Hooks.addHook s.hooks a
    .ok ({ s with hooks := h }, {})
  | .removeHook a => do
    require (decide (sender = s.dao)) .unauthorized
    let h ← Hooks.removeHook s.hooks a
    .ok ({ s with hooks := h }, {})
  | .updateActiveThreshold t => do
    require (decide (sender = s.dao)) .unauthorized
    checkThreshold t (some supply)
    .ok ({ s with threshold := t }, {})

/-- `query_voting_power_at_height`, contracts/voting/dao-voting-cw721-staked/src/contract.rs:577-589. -/
def powerAt (s : State) (a : Addr) (h : Nat) : Nat := (s.balances.atHeight a h).getD 0

/-- `query_total_power_at_height`, contracts/voting/dao-voting-cw721-staked/src/contract.rs:591-597. -/
def totalPowerAt (s : State) (h : Nat) : Nat := (s.totalStaked.atHeight () h).getD 0

/-- `query_is_active`, contracts/voting/dao-voting-cw721-staked/src/contract.rs:508-575. -/
def active (s : State) (b : Block) (supply : Nat) : Res Bool :=
  isActiveNft s.threshold (totalPowerAt s b.height) supply

/-! ## The contract over the NFT contract -/

/-- The contract, its own address, and the owners of the NFTs. -/
structure World where
  c : State
  self : Addr
  owners : AMap Tok Addr
  deriving DecidableEq, Repr

/-- Transactions: a call of the contract; a `SendNft` to the contract, a transfer, a mint and a burn at
the NFT contract. The first argument is who sends the message. -/
inductive Call where
  | exec (sender : Addr) (m : Msg)
  | send (sender : Addr) (token : Tok)
  | transfer (sender to : Addr) (token : Tok)
  | mint (to : Addr) (token : Tok)
  | burn (sender : Addr) (token : Tok)
  deriving DecidableEq, Repr

/-- A `TransferNft` by the contract: only the owner, or somebody approved, may. -/
def giveBack (owners : AMap Tok Addr) (self : Addr) : List (Addr × Tok) → Res (AMap Tok Addr)
  | [] => .ok owners
  | (a, t) :: rest => do
    require (decide (owners.get t = some self)) .unauthorized
    giveBack (owners.set t a) self rest

/-- A message by somebody else about a token: the contract's own tokens cannot be touched. -/
def canTouch (w : World) (sender : Addr) (t : Tok) : Bool :=
  match w.owners.get t with
  | some o => decide (o ≠ w.self ∧ sender ≠ w.self)
  | none => false

/-- One transaction. The NFT contract calls only on a `SendNft`. The number of tokens fits a `u64`. -/
def step (w : World) (b : Block) : Call → Res (World × Out)
  | .exec sender m => do
    require (decide (sender ≠ w.self ∧ sender ≠ w.c.nft)) .unauthorized
    let (c, out) ← exec w.c b w.owners.length sender m
    let o ← giveBack w.owners w.self out.send
    .ok ({ w with c := c, owners := o }, out)
  | .send sender t => do
    require (canTouch w sender t) .unauthorized
    let (c, out) ← exec w.c b w.owners.length w.c.nft (.receiveNft sender t)
    .ok ({ w with c := c, owners := w.owners.set t w.self }, out)
  | .transfer sender to t => do
    require (canTouch w sender t) .unauthorized
    .ok ({ w with owners := w.owners.set t to }, {})
  | .mint to t => do
    require (decide (w.owners.get t = none ∧ w.owners.length + 1 < U64)) .invalid
    .ok ({ w with owners := w.owners.set t to }, {})
  | .burn sender t => do
    require (canTouch w sender t) .unauthorized
    .ok ({ w with owners := w.owners.erase t }, {})

/-- The transition system: any instantiation over any collection. -/
def sys : Sys World Block Call Out where
  init b w := ∃ dao nft supply d t, instantiate b dao nft supply d t = .ok w.c ∧
    (supply = some w.owners.length ∨ supply = none) ∧ AMap.WF w.owners ∧ w.owners.length < U64
  block b := b
  step := step

end Verif.NftStaked
