import Verif.Base.Core
/-!
# Ownership

`cw_ownable` (external crate, version 0.5; what is assumed of it is written here).
-/

namespace Verif

/-- `cw_ownable::Ownership`. -/
structure Ownership where
  owner : Option Addr
  pendingOwner : Option Addr := none
  pendingExpiry : Option Expiration := none
  deriving DecidableEq, Repr

/-- `cw_ownable::Action`. -/
inductive OwnerAction where
  | transfer (newOwner : Addr) (expiry : Option Expiration)
  | accept
  | renounce
  deriving DecidableEq, Repr

namespace Ownership

/-- `cw_ownable::assert_owner`. -/
def assertOwner (o : Ownership) (sender : Addr) : Res Unit :=
  require (decide (o.owner = some sender)) .unauthorized

/-- The expiry of a pending transfer has passed. -/
def expired (o : Ownership) (b : Block) : Bool :=
  match o.pendingExpiry with
  | some e => e.isExpired b
  | none => false

/-- `cw_ownable::update_ownership`. -/
def update (o : Ownership) (b : Block) (sender : Addr) : OwnerAction → Res Ownership
  | .transfer n e => do
    o.assertOwner sender
    .ok { o with pendingOwner := some n, pendingExpiry := e }
  | .accept => do
    require (decide (o.pendingOwner = some sender)) .unauthorized
    require (!o.expired b) .invalid
    .ok { owner := o.pendingOwner }
  | .renounce => do
    o.assertOwner sender
    .ok { owner := none }

theorem assertOwner_ok {o : Ownership} {a : Addr} {u : Unit} :
    o.assertOwner a = .ok u ↔ o.owner = some a := by simp [assertOwner]

/-- Ownership changes hands only by the owner's doing: the new owner is the one an owner named. -/
theorem update_owner {o o' : Ownership} {b : Block} {a : Addr} {x : OwnerAction}
    (h : o.update b a x = .ok o') :
    o'.owner = o.owner ∨ (o'.owner = some a ∧ o.pendingOwner = some a) ∨
      (o'.owner = none ∧ o.owner = some a) := by
  cases x with
  | transfer n e => simp [update] at h; obtain ⟨_, rfl⟩ := h; exact Or.inl rfl
  | accept =>
    simp [update] at h; obtain ⟨h1, _, rfl⟩ := h
    exact Or.inr (Or.inl ⟨h1, h1⟩)
  | renounce =>
    simp [update, assertOwner] at h; obtain ⟨h1, rfl⟩ := h; exact Or.inr (Or.inr ⟨rfl, h1⟩)

end Ownership
end Verif
