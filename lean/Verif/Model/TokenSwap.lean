import Verif.Base.Ledger
import Verif.Base.History
/-!
# cw-token-swap

An escrow between two parties, each of which promises some amount of a token.
-/

namespace Verif.TokenSwap

/-- A native denomination or a cw20 token, `CheckedTokenInfo`, contracts/external/cw-token-swap/src/state.rs:13-22. -/
inductive Token where
  | native (denom : Nat)
  | cw20 (contract : Addr)
  deriving DecidableEq, Repr

/-- `CheckedCounterparty`, contracts/external/cw-token-swap/src/state.rs:25-29. -/
structure Party where
  address : Addr
  token : Token
  amount : Nat
  provided : Bool
  deriving DecidableEq, Repr

/-- The storage, contracts/external/cw-token-swap/src/state.rs:31-32. -/
structure State where
  one : Party
  two : Party
  deriving DecidableEq, Repr

/-- `Counterparty::into_checked` and `TokenInfo::into_checked`, contracts/external/cw-token-swap/src/state.rs:34-72.
That a cw20 contract answers a query is left out. -/
def checked (address : Addr) (token : Token) (amount : Nat) : Res Party := do
  require (decide (amount ≠ 0)) .invalid
  .ok { address := address, token := token, amount := amount, provided := false }

/-- `instantiate`, contracts/external/cw-token-swap/src/contract.rs:20-42. -/
def instantiate (a1 : Addr) (t1 : Token) (n1 : Nat) (a2 : Addr) (t2 : Token) (n2 : Nat) : Res State := do
  let one ← checked a1 t1 n1
  let two ← checked a2 t2 n2
  require (decide (one.address ≠ two.address)) .invalid
  .ok { one := one, two := two }

/-- The parties seen from one side: `counterparty`, `other_counterparty`. -/
def State.party (s : State) (side : Bool) : Party := if side then s.one else s.two

/-- `storage.save` of `CounterpartyResponse`. -/
def State.put (s : State) (side : Bool) (p : Party) : State := if side then { s with one := p } else { s with two := p }

/-- `get_counterparty`, contracts/external/cw-token-swap/src/contract.rs:64-85: `true` for the first party. -/
def side (s : State) (sender : Addr) : Res Bool :=
  if sender = s.one.address then .ok true
  else if sender = s.two.address then .ok false
  else .error .unauthorized

/-- A transfer of tokens out of the contract: `into_send_message`, contracts/external/cw-token-swap/src/state.rs:74-97. -/
structure Pay where
  to : Addr
  token : Token
  amount : Nat
  deriving DecidableEq, Repr

/-- The messages of `do_fund`, contracts/external/cw-token-swap/src/contract.rs:114-125. -/
def swapMsgs (p other : Party) : List Pay :=
  if p.provided && other.provided then [⟨other.address, p.token, p.amount⟩, ⟨p.address, other.token, other.amount⟩]
  else []

/-- `do_fund`, contracts/external/cw-token-swap/src/contract.rs:91-131. -/
def doFund (s : State) (sd : Bool) (paid : Nat) : Res (State × List Pay) := do
  require (!(s.party sd).provided) .invalid
  require (decide (paid = (s.party sd).amount)) .invalid
  let p := { s.party sd with provided := true }
  .ok (s.put sd p, swapMsgs p (s.party !sd))

/-- `execute_receive`, contracts/external/cw-token-swap/src/contract.rs:133-169. -/
def receive (s : State) (contract sender : Addr) (amount : Nat) : Res (State × List Pay) := do
  let sd ← side s sender
  require (decide ((s.party sd).token = .cw20 contract)) .invalid
  doFund s sd amount

/-- `must_pay` of cw-utils: exactly one coin, of the denomination, not zero. -/
def mustPay (coins : List (Nat × Nat)) (denom : Nat) : Res Nat :=
  match coins with
  | [(d, n)] => if d = denom ∧ n ≠ 0 then .ok n else .error .invalid
  | _ => .error .invalid

/-- The promised denomination, contracts/external/cw-token-swap/src/contract.rs:178-185. -/
def nativeDenom : Token → Res Nat
  | .native d => .ok d
  | .cw20 _ => .error .invalid

/-- `execute_fund`, contracts/external/cw-token-swap/src/contract.rs:171-195. -/
def fund (s : State) (sender : Addr) (coins : List (Nat × Nat)) : Res (State × List Pay) := do
  let sd ← side s sender
  let d ← nativeDenom (s.party sd).token
  let n ← mustPay coins d
  doFund s sd n

/-- `execute_withdraw`, contracts/external/cw-token-swap/src/contract.rs:197-230. -/
def withdraw (s : State) (sender : Addr) : Res (State × List Pay) := do
  let sd ← side s sender
  let p := s.party sd
  require p.provided .invalid
  require (!(s.party !sd).provided) .invalid
  .ok (s.put sd { p with provided := false }, [⟨p.address, p.token, p.amount⟩])

/-- The contract, its address and all balances. -/
structure World where
  c : State
  self : Addr
  ledger : Ledger (Token × Addr)
  deriving DecidableEq, Repr

/-- Transactions: `Fund` with coins, a cw20 `Send` to the contract, `Withdraw`, and any other transfer. -/
inductive Call where
  | fund (sender : Addr) (coins : List (Nat × Nat))
  | send (contract sender : Addr) (amount : Nat)
  | withdraw (sender : Addr)
  | transfer (token : Token) (sender to : Addr) (amount : Nat)
  deriving DecidableEq, Repr

/-- Who sends a transaction. -/
def Call.sender : Call → Addr
  | .fund s _ => s
  | .send _ s _ => s
  | .withdraw s => s
  | .transfer _ s _ _ => s

/-- Coins sent along with a message. -/
def pull (self sender : Addr) : List (Nat × Nat) → Ledger (Token × Addr) → Res (Ledger (Token × Addr))
  | [], l => .ok l
  | (d, n) :: rest, l => do
    let l ← l.move (.native d, sender) (.native d, self) n
    pull self sender rest l

/-- Payments out of the contract. -/
def push (self : Addr) : List Pay → Ledger (Token × Addr) → Res (Ledger (Token × Addr))
  | [], l => .ok l
  | p :: rest, l => do
    let l ← l.move (p.token, self) (p.token, p.to) p.amount
    push self rest l

/-- One transaction; `execute`, contracts/external/cw-token-swap/src/contract.rs:45-56. The contract itself sends no
transactions. -/
def step (w : World) (_ : Block) (call : Call) : Res (World × List Pay) := do
  require (decide (call.sender ≠ w.self)) .unauthorized
  match call with
  | .fund a coins => do
    let l ← pull w.self a coins w.ledger
    let r ← fund w.c a coins
    let l ← push w.self r.2 l
    .ok ({ w with c := r.1, ledger := l }, r.2)
  | .send t a n => do
    let l ← w.ledger.move (.cw20 t, a) (.cw20 t, w.self) n
    let r ← receive w.c t a n
    let l ← push w.self r.2 l
    .ok ({ w with c := r.1, ledger := l }, r.2)
  | .withdraw a => do
    let r ← withdraw w.c a
    let l ← push w.self r.2 w.ledger
    .ok ({ w with c := r.1, ledger := l }, r.2)
  | .transfer t a b n => do
    let l ← w.ledger.move (t, a) (t, b) n
    .ok ({ w with ledger := l }, [])

/-- Histories of one swap. Neither party is the contract itself. -/
def sys : Sys World Block Call (List Pay) where
  init _ w := (∃ a1 t1 n1 a2 t2 n2, instantiate a1 t1 n1 a2 t2 n2 = .ok w.c) ∧
    w.c.one.address ≠ w.self ∧ w.c.two.address ≠ w.self
  block := id
  step := step

end Verif.TokenSwap
