import Verif.Model.Cw20Stake
import Verif.Model.ActiveThreshold
/-!
# Model of `contracts/voting/dao-voting-cw20-staked`

The module keeps no balances: it asks a cw20-stake contract. It is modelled together with that contract
and the ledger of the token, `Verif.Model.Cw20Stake`. Simplifications, all of them: addresses validate;
event attributes, the cw2 version and `migrate` are dropped; instantiation and its replies are one step, as
they are one transaction; code ids, labels and the token's name, symbol and marketing are dropped. The token
is cw20-base, whose `instantiate` (an external crate) rejects an address that is listed twice.
-/

namespace Verif.Cw20Voting
open Verif Verif.Active

/-- The storage of the contract, contracts/voting/dao-voting-cw20-staked/src/state.rs:6-14; the code id and
the duration kept for the reply are not needed after instantiation. -/
structure State where
  dao : Addr
  token : Addr
  staking : Addr
  threshold : Option ActiveThreshold
  deriving DecidableEq, Repr

/-- The module, and the staking contract with the token's ledger. -/
structure World where
  v : State
  s : Cw20Stake.World
  deriving DecidableEq, Repr

/-- The supply of the token, as `TokenInfo` reports it. -/
def World.supply (w : World) : Nat := total w.s.ledger

/-- The percentage check of `instantiate`, contracts/voting/dao-voting-cw20-staked/src/contract.rs:41-48. -/
def checkPercentage : Option ActiveThreshold → Res Unit
  | some (.percentage p) => require (decide (p ≤ DEC_ONE ∧ 0 < p)) .invalid
  | _ => .ok ()

/-- The count check of `instantiate` and `reply`,
contracts/voting/dao-voting-cw20-staked/src/contract.rs:57-59 and 402-405, with
`assert_valid_absolute_count_threshold`, contract.rs:168-183. -/
def checkCount (supply : Nat) : Option ActiveThreshold → Res Unit
  | some (.absolute n) => do
    require (decide (n ≠ 0)) .invalid
    require (decide (n ≤ supply)) .invalid
  | _ => .ok ()

/-- `instantiate` with an existing token and an existing staking contract `s`,
contracts/voting/dao-voting-cw20-staked/src/contract.rs:51-82. `token` is the address given. -/
def createOverStaking (dao token : Addr) (t : Option ActiveThreshold) (s : Cw20Stake.World) : Res World := do
  checkPercentage t
  checkCount (total s.ledger) t
  require (decide (token = s.c.config.token)) .invalid
  .ok ⟨⟨dao, token, s.self, t⟩, s⟩

/-- A new staking contract at `staking` over a token with ledger `l`: the message of
contracts/voting/dao-voting-cw20-staked/src/contract.rs:83-104 and 407-425, and the reply that stores its
address, contract.rs:430-447. -/
def withNewStaking (b : Block) (dao token staking : Addr) (t : Option ActiveThreshold)
    (d : Option Duration) (l : Ledger Addr) : Res World := do
  let c ← Cw20Stake.instantiate b (some dao) token d
  .ok ⟨⟨dao, token, staking, t⟩, ⟨c, staking, l⟩⟩

/-- `instantiate` with an existing token with ledger `l` and a new staking contract,
contracts/voting/dao-voting-cw20-staked/src/contract.rs:51-60 and 83-104. -/
def createOverToken (b : Block) (dao token staking : Addr) (t : Option ActiveThreshold)
    (d : Option Duration) (l : Ledger Addr) : Res World := do
  checkPercentage t
  checkCount (total l) t
  withNewStaking b dao token staking t d l

/-- The fold over the initial balances, contracts/voting/dao-voting-cw20-staked/src/contract.rs:119-121;
the sum panics on overflow. -/
def sumBalances : List (Addr × Nat) → Nat → Res Nat
  | [], p => .ok p
  | (_, n) :: rest, p => do
    let q ← add128 p n
    sumBalances rest q

/-- The balance of the DAO appended, contracts/voting/dao-voting-cw20-staked/src/contract.rs:129-136. -/
def withDaoBalance (dao : Addr) (bal : List (Addr × Nat)) : Option Nat → List (Addr × Nat)
  | some n => if 0 < n then bal ++ [(dao, n)] else bal
  | none => bal

/-- cw20-base's `create_accounts`: every address once, and the supply fits. -/
def createAccounts : List (Addr × Nat) → Ledger Addr → Res (Ledger Addr)
  | [], l => .ok l
  | (a, n) :: rest, l => do
    require (decide (AMap.get l a = none)) .invalid
    require (decide (total l + n < U128)) .overflow
    createAccounts rest (AMap.set l a n)

/-- `instantiate` with a new token and a new staking contract,
contracts/voting/dao-voting-cw20-staked/src/contract.rs:107-164, with `reply`, contract.rs:387-450. -/
def createToken (b : Block) (dao token staking : Addr) (t : Option ActiveThreshold)
    (bal : List (Addr × Nat)) (daoBal : Option Nat) (d : Option Duration) : Res World := do
  checkPercentage t
  let n ← sumBalances bal 0
  require (decide (n ≠ 0)) .invalid
  let l ← createAccounts (withDaoBalance dao bal daoBal) []
  checkCount (total l) t
  withNewStaking b dao token staking t d l

/-- `execute_update_active_threshold`, contracts/voting/dao-voting-cw20-staked/src/contract.rs:199-228. -/
def updateThreshold (w : World) (sender : Addr) (t : Option ActiveThreshold) : Res World := do
  require (decide (sender = w.v.dao)) .unauthorized
  checkPercentage t
  checkCount w.supply t
  .ok { w with v := { w.v with threshold := t } }

/-- `query_voting_power_at_height`, contracts/voting/dao-voting-cw20-staked/src/contract.rs:256-275, over
cw20-stake's `query_staked_balance_at_height`, contracts/staking/cw20-stake/src/contract.rs:359-371: the
power and the height it is for. -/
def power (w : World) (b : Block) (a : Addr) (h : Option Nat) : Nat × Nat :=
  (Cw20Stake.stakedAt w.s.c a (h.getD b.height), h.getD b.height)

/-- `query_total_power_at_height`, contracts/voting/dao-voting-cw20-staked/src/contract.rs:277-291, over
cw20-stake's `query_total_staked_at_height`, contracts/staking/cw20-stake/src/contract.rs:373-383. -/
def totalPower (w : World) (b : Block) (h : Option Nat) : Nat × Nat :=
  (Cw20Stake.totalStakedAt w.s.c (h.getD b.height), h.getD b.height)

/-- `query_is_active`, contracts/voting/dao-voting-cw20-staked/src/contract.rs:303-365. -/
def active (w : World) (b : Block) : Res Bool :=
  isActive w.v.threshold (totalPower w b none).1 w.supply

/-- Transactions: anything at the staking contract and the token; an update of the threshold here. -/
inductive Call where
  | stake (c : Cw20Stake.Call)
  | update (sender : Addr) (t : Option ActiveThreshold)
  deriving DecidableEq, Repr

/-- What the staking contract sends. -/
abbrev Out := Cw20Stake.Out

/-- One transaction. -/
def step (w : World) (b : Block) : Call → Res (World × Out)
  | .stake c => do
    let r ← Cw20Stake.step w.s b c
    .ok ({ w with s := r.1 }, r.2)
  | .update sender t => do
    let w' ← updateThreshold w sender t
    .ok (w', {})

/-- The three ways a module comes to be: over an existing staking contract in any state it can reach, over
an existing token, and with a new token. Addresses of new contracts are new. -/
inductive Created (b : Block) : World → Prop where
  | overStaking {dao token : Addr} {t : Option ActiveThreshold} {s : Cw20Stake.World} {b0 : Block}
      {log : List (Ev Cw20Stake.World Block Cw20Stake.Call Cw20Stake.Out)} {w : World}
      (hs : Cw20Stake.sys.Reach s b0 log) (hb : b0.le b)
      (hc : createOverStaking dao token t s = .ok w) : Created b w
  | overToken {dao token staking : Addr} {t : Option ActiveThreshold} {d : Option Duration}
      {l : Ledger Addr} {w : World} (hl : total l < U128) (hne : token ≠ staking)
      (hc : createOverToken b dao token staking t d l = .ok w) : Created b w
  | newToken {dao token staking : Addr} {t : Option ActiveThreshold} {bal : List (Addr × Nat)}
      {daoBal : Option Nat} {d : Option Duration} {w : World} (hne : token ≠ staking)
      (hc : createToken b dao token staking t bal daoBal d = .ok w) : Created b w

/-- The transition system. -/
def sys : Sys World Block Call Out where
  init := Created
  block b := b
  step := step

end Verif.Cw20Voting
