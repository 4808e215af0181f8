import Verif.Base.Coins
import Verif.Base.History
/-!
# cw-fund-distributor

Distributes a pool of tokens over the members of a DAO by their voting power at some height.
-/

namespace Verif.FundDistributor

/-- The storage, contracts/distribution/cw-fund-distributor/src/state.rs:1-24. The maps for cw20 tokens and for native
denominations are one map here, keyed by `Token`. -/
structure State where
  distHeight : Nat
  funding : Expiration
  totalPower : Nat
  balances : AMap Token Nat
  claims : AMap (Addr × Token) Nat
  deriving DecidableEq, Repr

/-- What a transaction sees: the block, and what the voting module answers to `VotingPowerAtHeight` and
`TotalPowerAtHeight`. -/
structure Env where
  block : Block
  power : Addr → Nat → Nat
  total : Nat → Nat

/-- `instantiate`, contracts/distribution/cw-fund-distributor/src/contract.rs:28-63. The total is read at the height of
the instantiation, not at the distribution height. -/
def instantiate (e : Env) (distHeight : Nat) (period : Duration) : Res State := do
  require (decide (e.total e.block.height ≠ 0)) .invalid
  .ok { distHeight := distHeight, funding := period.after e.block, totalPower := e.total e.block.height
        balances := [], claims := [] }

/-- The update of a balance in `execute_fund_cw20` and `execute_fund_native`: `Map::update` with `checked_add`. -/
def fundOne (s : State) (t : Token) (n : Nat) : Res State :=
  if n = 0 then .ok s
  else do
    let b ← add128 (getD0 s.balances t) n
    .ok { s with balances := s.balances.set t b }

/-- `execute_fund_cw20`, contracts/distribution/cw-fund-distributor/src/contract.rs:87-118. -/
def fundCw20 (s : State) (e : Env) (token : Addr) (n : Nat) : Res State := do
  require (!s.funding.isExpired e.block) .invalid
  fundOne s (.cw20 token) n

/-- The loop of `execute_fund_native`. -/
def fundCoins (s : State) : List (Nat × Nat) → Res State
  | [] => .ok s
  | (d, n) :: rest => do
    let s ← fundOne s (.native d) n
    fundCoins s rest

/-- `execute_fund_native`, contracts/distribution/cw-fund-distributor/src/contract.rs:120-155. -/
def fundNative (s : State) (e : Env) (coins : List (Nat × Nat)) : Res State := do
  require (!s.funding.isExpired e.block) .invalid
  fundCoins s coins

/-- `Uint128::multiply_ratio`: 256 bits in between; panics when the result exceeds 128 bits. -/
def multiplyRatio (x num den : Nat) : Res Nat :=
  if den = 0 then .error .panic else if x * num / den < U128 then .ok (x * num / den) else .error .panic

/-- `get_entitlement`, contracts/distribution/cw-fund-distributor/src/contract.rs:157-168. -/
def entitlement (funds share previous : Nat) : Res Nat := do
  let total ← multiplyRatio funds share DEC_ONE
  sub128 total previous

/-- `get_relative_share`, contracts/distribution/cw-fund-distributor/src/contract.rs:170-185: `Decimal::from_ratio`, 18
digits rounded down. -/
def relativeShare (s : State) (e : Env) (sender : Addr) : Res Nat :=
  multiplyRatio (e.power sender s.distHeight) DEC_ONE s.totalPower

/-- Record a claim and pay it, unless it is zero. -/
def record (s : State) (a : Addr) (t : Token) (n : Nat) : Res (State × List Pay) :=
  if n = 0 then .ok (s, [])
  else do
    let c ← add128 (getD0 s.claims (a, t)) n
    .ok ({ s with claims := s.claims.set (a, t) c }, [⟨a, t, n⟩])

/-- One round of the loops of `get_cw20_claim_wasm_messages` and `get_native_claim_bank_messages`. -/
def claimOne (s : State) (a : Addr) (share : Nat) (t : Token) : Res (State × List Pay) := do
  let bal ← orErr (s.balances.get t) .notFound
  let n ← entitlement bal share (getD0 s.claims (a, t))
  record s a t n

/-- `get_cw20_claim_wasm_messages`, contracts/distribution/cw-fund-distributor/src/contract.rs:214-260, and
`get_native_claim_bank_messages` (291-334). -/
def claimTokens (s : State) (a : Addr) (share : Nat) : List Token → Res (State × List Pay)
  | [] => .ok (s, [])
  | t :: rest => do
    let r ← claimOne s a share t
    let r2 ← claimTokens r.1 a share rest
    .ok (r2.1, r.2 ++ r2.2)

/-- `execute_claim_cw20s`, contracts/distribution/cw-fund-distributor/src/contract.rs:187-209, and
`execute_claim_natives` (262-286): they differ in the kind of token. -/
def claimList (s : State) (e : Env) (sender : Addr) (tokens : List Token) : Res (State × List Pay) := do
  require (s.funding.isExpired e.block) .invalid
  require (!tokens.isEmpty) .invalid
  let share ← relativeShare s e sender
  claimTokens s sender share tokens

/-- The tokens of the pool, cw20 first. (The order among them is that of the map here.) -/
def poolTokens (s : State) : List Token :=
  let ks := s.balances.map Prod.fst
  ks.filter (fun t => match t with | .cw20 _ => true | _ => false) ++
    ks.filter (fun t => match t with | .native _ => true | _ => false)

/-- `execute_claim_all`, contracts/distribution/cw-fund-distributor/src/contract.rs:336-380. -/
def claimAll (s : State) (e : Env) (sender : Addr) : Res (State × List Pay) := do
  require (s.funding.isExpired e.block) .invalid
  let share ← relativeShare s e sender
  claimTokens s sender share (poolTokens s)

/-- The loops of `execute_redistribute_unclaimed_funds`. -/
def subtractClaims : AMap (Addr × Token) Nat → AMap Token Nat → Res (AMap Token Nat)
  | [], b => .ok b
  | ((_, t), n) :: rest, b => do
    let old ← orErr (b.get t) .notFound
    let x ← sub128 old n
    subtractClaims rest (b.set t x)

/-- `execute_redistribute_unclaimed_funds`, contracts/distribution/cw-fund-distributor/src/contract.rs:560-612. The
recorded total stays that of the instantiation. -/
def redistribute (s : State) (distHeight : Nat) : Res State := do
  let b ← subtractClaims s.claims s.balances
  .ok { s with distHeight := distHeight, balances := b, claims := [] }

/-- `query_native_entitlement`, contracts/distribution/cw-fund-distributor/src/contract.rs:450-468, and
`query_cw20_entitlement` (470-490). -/
def queryEntitlement (s : State) (e : Env) (a : Addr) (t : Token) : Res Nat := do
  let share ← relativeShare s e a
  entitlement (getD0 s.balances t) share (getD0 s.claims (a, t))

/-- The contract, its address and all balances. -/
structure World where
  c : State
  self : Addr
  ledger : Balances
  deriving DecidableEq, Repr

/-- Transactions: the messages of the contract (cw20 funding is a `Send` of the token), the migration, which only the
chain-level admin can do, and any other transfer. -/
inductive Call where
  | fundNative (sender : Addr) (coins : List (Nat × Nat))
  | fundCw20 (token sender : Addr) (amount : Nat)
  | claimCw20 (sender : Addr) (tokens : List Addr)
  | claimNative (sender : Addr) (denoms : List Nat)
  | claimAll (sender : Addr)
  | redistribute (sender : Addr) (distHeight : Nat)
  | transfer (token : Token) (sender to : Addr) (amount : Nat)
  deriving DecidableEq, Repr

/-- Who sends a transaction. -/
def Call.sender : Call → Addr
  | .fundNative s _ => s
  | .fundCw20 _ s _ => s
  | .claimCw20 s _ => s
  | .claimNative s _ => s
  | .claimAll s => s
  | .redistribute s _ => s
  | .transfer _ s _ _ => s

/-- Save the state and send the payments. -/
def settle (w : World) (r : State × List Pay) (l : Balances) : Res (World × List Pay) := do
  let l ← payAll w.self r.2 l
  .ok ({ w with c := r.1, ledger := l }, r.2)

/-- One transaction; `execute`, contracts/distribution/cw-fund-distributor/src/contract.rs:66-85, and `migrate`
(551-557). Anybody may migrate here; a native funding brings coins with it, and claims do not. -/
def step (w : World) (e : Env) (call : Call) : Res (World × List Pay) := do
  require (decide (call.sender ≠ w.self)) .unauthorized
  match call with
  | .fundNative a coins => do
    let l ← pullCoins w.self a coins w.ledger
    let c ← fundNative w.c e coins
    .ok ({ w with c := c, ledger := l }, [])
  | .fundCw20 t a n => do
    let l ← w.ledger.move (.cw20 t, a) (.cw20 t, w.self) n
    let c ← fundCw20 w.c e t n
    .ok ({ w with c := c, ledger := l }, [])
  | .claimCw20 a ts => do
    let r ← claimList w.c e a (ts.map .cw20)
    settle w r w.ledger
  | .claimNative a ds => do
    let r ← claimList w.c e a (ds.map .native)
    settle w r w.ledger
  | .claimAll a => do
    let r ← claimAll w.c e a
    settle w r w.ledger
  | .redistribute _ h => do
    let c ← redistribute w.c h
    .ok ({ w with c := c }, [])
  | .transfer t a b n => do
    let l ← w.ledger.move (t, a) (t, b) n
    .ok ({ w with ledger := l }, [])

/-- Histories of one distributor, from its instantiation. -/
def sys : Sys World Env Call (List Pay) where
  init b w := ∃ e h d, e.block = b ∧ instantiate e h d = .ok w.c
  block := Env.block
  step := step

end Verif.FundDistributor
