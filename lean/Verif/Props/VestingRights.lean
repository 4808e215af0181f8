import Verif.Props.Vesting
/-!
# C64: who may do what with a vesting contract
-/

namespace Verif.Vesting
open Verif

/-- **C64.** Where the staking rewards go is said by the recipient, and after a cancellation by the owner; by nobody else,
and by them at any time. -/
theorem C64_withdraw_address {w : World} {e : Env} :
    (∃ r, step w e (.msg .setWithdrawAddress) = .ok r) ↔
      match w.c.vest.status with
      | .canceled _ => w.c.owner.owner = some e.sender
      | _ => e.sender = w.c.vest.recipient := by
  have hc : (mature w (StakeTracker.secs e.block)).c = w.c := rfl
  simp only [step, exec, setWithdrawAddress, maySetWithdraw, hc]
  cases hst : w.c.vest.status with
  | canceled o =>
    simp only [bind_ok, Ownership.assertOwner_ok]
    exact ⟨fun ⟨_, _, ⟨_, h, _⟩, _⟩ => h, fun h => ⟨_, _, ⟨(), h, rfl⟩, _, rfl, rfl⟩⟩
  | unfunded =>
    simp only [bind_ok, require_ok, decide_eq_true_eq]
    exact ⟨fun ⟨_, _, ⟨_, h, _⟩, _⟩ => h, fun h => ⟨_, _, ⟨(), h, rfl⟩, _, rfl, rfl⟩⟩
  | funded =>
    simp only [bind_ok, require_ok, decide_eq_true_eq]
    exact ⟨fun ⟨_, _, ⟨_, h, _⟩, _⟩ => h, fun h => ⟨_, _, ⟨(), h, rfl⟩, _, rfl, rfl⟩⟩

end Verif.Vesting
