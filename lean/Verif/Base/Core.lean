/-!
# Common vocabulary of the model

Errors, bounded integers, blocks, durations and expirations, as used by every contract of the
workspace. The Rust types come from `cosmwasm-std` and `cw-utils`, whose sources are not in /repo;
what is assumed of them is written here.
-/

namespace Verif

/-- Addresses (`cosmwasm_std::Addr`). Only equality is used. -/
abbrev Addr := Nat

/-- All ways a transaction aborts. Error values of the contracts carry no information the
properties speak about, so one constructor per family is enough; `overflow`, `underflow` and `panic`
are the paths on which the Rust code panics (release profile: `overflow-checks = true`,
/repo/Cargo.toml:12-21). -/
inductive Err where
  | unauthorized
  | notFound
  | invalid
  | overflow
  | underflow
  | panic
  | custom (n : Nat)
  deriving DecidableEq, Repr

/-- `Result<_, ContractError>`. -/
abbrev Res (α : Type) := Except Err α

/-- Early return with an error unless `b`. Models `if !b { return Err(e) }`. -/
def require (b : Bool) (e : Err) : Res Unit := if b then .ok () else .error e

@[simp] theorem require_ok (b : Bool) (e : Err) (u : Unit) :
    (require b e = .ok u) ↔ b = true := by
  cases b <;> simp [require]

@[simp] theorem bind_ok {α β : Type} (x : Res α) (f : α → Res β) (r : β) :
    ((x >>= f) = .ok r) ↔ ∃ a, x = .ok a ∧ f a = .ok r := by
  cases x with
  | error e => simp [bind, Except.bind]
  | ok a => simp [bind, Except.bind]

instance {α : Type} [DecidableEq α] : DecidableEq (Res α) := fun x y =>
  match x, y with
  | .ok a, .ok b => if h : a = b then isTrue (by rw [h]) else isFalse (by simpa using h)
  | .error a, .error b => if h : a = b then isTrue (by rw [h]) else isFalse (by simpa using h)
  | .ok _, .error _ => isFalse (by simp)
  | .error _, .ok _ => isFalse (by simp)

/-- Computing with `>>=`. Deliberately not tagged as definitional: the kernel would unfold the rest
of the block to check it. -/
@[simp] theorem ok_bind {α β : Type} (a : α) (f : α → Res β) : ((Except.ok a : Res α) >>= f) = f a := by
  have h : ∀ x : Res β, x = x := fun _ => rfl
  exact h _

@[simp] theorem error_bind {α β : Type} (e : Err) (f : α → Res β) :
    ((Except.error e : Res α) >>= f) = .error e := by
  have h : ∀ x : Res β, x = x := fun _ => rfl
  exact h _

theorem pure_eq {α : Type} (a : α) : (pure a : Res α) = .ok a := by
  have h : ∀ x : Res α, x = x := fun _ => rfl
  exact h _

@[simp] theorem pure_ok {α : Type} (a b : α) : ((pure a : Res α) = .ok b) ↔ a = b := by
  simp [pure, Except.pure]

@[simp] theorem error_ne_ok {α : Type} (e : Err) (a : α) :
    ((Except.error e : Res α) = .ok a) ↔ False := by simp

@[simp] theorem throw_ne_ok {α : Type} (e : Err) (a : α) :
    ((throw e : Res α) = .ok a) ↔ False := by
  simp [throw, throwThe, MonadExceptOf.throw]

/-- `Option::ok_or`. -/
def orErr {α : Type} (o : Option α) (e : Err) : Res α :=
  match o with
  | some a => .ok a
  | none => .error e

@[simp] theorem orErr_ok {α : Type} (o : Option α) (e : Err) (a : α) :
    (orErr o e = .ok a) ↔ o = some a := by
  cases o <;> simp [orErr]

/-- `Uint128::MAX + 1`. -/
def U128 : Nat := 2 ^ 128
/-- `Uint256::MAX + 1`. -/
def U256 : Nat := 2 ^ 256
/-- `u64::MAX + 1`. -/
def U64 : Nat := 2 ^ 64

/-- `Uint128 + Uint128` and `checked_add` (panics, respectively fails, on overflow). -/
def add128 (a b : Nat) : Res Nat := if a + b < U128 then .ok (a + b) else .error .overflow
/-- `Uint128 - Uint128` and `checked_sub`. -/
def sub128 (a b : Nat) : Res Nat := if b ≤ a then .ok (a - b) else .error .underflow
/-- `Uint128::checked_mul`. -/
def mul128 (a b : Nat) : Res Nat := if a * b < U128 then .ok (a * b) else .error .overflow
/-- `u64 + u64`. -/
def add64 (a b : Nat) : Res Nat := if a + b < U64 then .ok (a + b) else .error .overflow

@[simp] theorem add128_ok (a b c : Nat) : (add128 a b = .ok c) ↔ (a + b < U128 ∧ a + b = c) := by
  unfold add128; split <;> simp <;> omega
@[simp] theorem sub128_ok (a b c : Nat) : (sub128 a b = .ok c) ↔ (b ≤ a ∧ a - b = c) := by
  unfold sub128; split <;> simp <;> omega
@[simp] theorem mul128_ok (a b c : Nat) : (mul128 a b = .ok c) ↔ (a * b < U128 ∧ a * b = c) := by
  unfold mul128; split <;> simp <;> omega
@[simp] theorem add64_ok (a b c : Nat) : (add64 a b = .ok c) ↔ (a + b < U64 ∧ a + b = c) := by
  unfold add64; split <;> simp <;> omega

/-- `cosmwasm_std::BlockInfo` (chain id dropped). `time` is in nanoseconds, as `Timestamp` is. -/
structure Block where
  height : Nat
  time : Nat
  deriving DecidableEq, Repr

/-- Blocks are ordered by the chain: a later block has at least the height and the time. -/
def Block.le (a b : Block) : Prop := a.height ≤ b.height ∧ a.time ≤ b.time

theorem Block.le_refl (a : Block) : a.le a := ⟨Nat.le_refl _, Nat.le_refl _⟩
theorem Block.le_trans {a b c : Block} (h : a.le b) (h' : b.le c) : a.le c :=
  ⟨Nat.le_trans h.1 h'.1, Nat.le_trans h.2 h'.2⟩

/-- `cw_utils::Duration` (`Time` is in seconds). -/
inductive Duration where
  | height (n : Nat)
  | time (s : Nat)
  deriving DecidableEq, Repr

/-- `cw_utils::Expiration` (`AtTime` is in nanoseconds). -/
inductive Expiration where
  | atHeight (h : Nat)
  | atTime (t : Nat)
  | never
  deriving DecidableEq, Repr

/-- Nanoseconds per second. -/
def NANOS : Nat := 1000000000

/-- `cw_utils::Expiration::is_expired`: the boundary block counts as expired. -/
def Expiration.isExpired (e : Expiration) (b : Block) : Bool :=
  match e with
  | .atHeight h => b.height ≥ h
  | .atTime t => b.time ≥ t
  | .never => false

/-- `cw_utils::Duration::after`. (64-bit overflow of the sum is not modelled: it would need a block
height or time within a voting period of 2^64.) -/
def Duration.after (d : Duration) (b : Block) : Expiration :=
  match d with
  | .height n => .atHeight (b.height + n)
  | .time s => .atTime (b.time + s * NANOS)

/-- `impl Add<Duration> for cw_utils::Expiration`: units must agree; `Never + d = Never`. -/
def Expiration.add (e : Expiration) (d : Duration) : Res Expiration :=
  match e, d with
  | .atHeight h, .height n => .ok (.atHeight (h + n))
  | .atTime t, .time s => .ok (.atTime (t + s * NANOS))
  | .never, _ => .ok .never
  | _, _ => .error .invalid

theorem Expiration.isExpired_mono {e : Expiration} {a b : Block} (h : a.le b)
    (he : e.isExpired a = true) : e.isExpired b = true := by
  obtain ⟨h1, h2⟩ := h
  cases e <;> simp_all [isExpired] <;> omega

theorem Expiration.add_isExpired {e e' : Expiration} {d : Duration} {b : Block}
    (h : e.add d = .ok e') (he : e'.isExpired b = true) : e.isExpired b = true := by
  cases e <;> cases d <;> simp [add] at h <;> subst h <;> simp_all [isExpired] <;> omega

/-- Number of atomics of `Decimal::one()`. -/
def DEC_ONE : Nat := 10 ^ 18

theorem U128_pos : 0 < U128 := by decide
theorem U128_lt_U256 : 1000000000 * U128 < U256 := by decide
theorem DEC_ONE_pos : 0 < DEC_ONE := by decide
theorem DEC_ONE_eq : DEC_ONE = 1000000000000000000 := by decide

attribute [irreducible] U128 U256 U64 DEC_ONE

end Verif
