import Verif.Model.Reply
/-! # C16: reply ids decode to what was encoded -/

namespace Verif.Reply
open Verif

theorem shl64_eq {x : Nat} (h : x < 2 ^ 61) : shl64 x RESERVED = 2 ^ 3 * x := by
  unfold shl64 RESERVED
  rw [Nat.shiftLeft_eq, Nat.mod_eq_of_lt (by omega)]; omega

theorem mask_or {x t : Nat} (h : x < 2 ^ 61) (ht : t < 2 ^ 3) :
    t ||| shl64 x RESERVED = 2 ^ 3 * x + t := by
  rw [shl64_eq h, Nat.or_comm, Nat.two_pow_add_eq_or_of_lt ht]

theorem decode_mask {x t : Nat} (ht : t < 2 ^ 3) :
    (2 ^ 3 * x + t) &&& TYPE_MASK = t ∧ (2 ^ 3 * x + t) >>> RESERVED = x := by
  constructor
  · show (2 ^ 3 * x + t) &&& (2 ^ 3 - 1) = t
    rw [Nat.and_two_pow_sub_one_eq_mod]; omega
  · show (2 ^ 3 * x + t) >>> 3 = x
    rw [Nat.shiftRight_eq_div_pow]; omega

/-- The number carried by a tag fits the 61 bits left for it. -/
def Tag.Fits : Tag → Prop
  | .failedProposalExecution i => i < 2 ^ 61
  | .failedProposalHook i => i < 2 ^ 61
  | .failedVoteHook i => i < 2 ^ 61
  | _ => True

/-- **C16.** Decoding the id attached to a submessage gives back exactly the kind and the number that
were encoded, for every kind and every number below 2^61. -/
theorem C16_decode_encode (t : Tag) (h : t.Fits) : decode (encode t) = .ok t := by
  cases t with
  | failedProposalExecution i =>
    have h : i < 2 ^ 61 := h
    simp only [encode, maskExecution, mask_or h (by decide : 0 < 2 ^ 3), decode,
      decode_mask (by decide : 0 < 2 ^ 3)]
  | failedProposalHook i =>
    have h : i < 2 ^ 61 := h
    simp only [encode, maskProposalHook, mask_or h (by decide : 1 < 2 ^ 3), decode,
      decode_mask (by decide : 1 < 2 ^ 3)]
  | failedVoteHook i =>
    have h : i < 2 ^ 61 := h
    simp only [encode, maskVoteHook, mask_or h (by decide : 2 < 2 ^ 3), decode,
      decode_mask (by decide : 2 < 2 ^ 3)]
  | failedPreProposeModuleHook => rfl
  | preProposeModuleInstantiation => rfl

/-- **C16.** Two different submessages never share an id. -/
theorem C16_encode_injective (t u : Tag) (ht : t.Fits) (hu : u.Fits) (h : encode t = encode u) :
    t = u := by
  have h1 := C16_decode_encode t ht
  have h2 := C16_decode_encode u hu
  rw [h, h2] at h1
  exact (Except.ok.inj h1).symm

/-- **C16.** Every id the contracts attach is a 64-bit number. -/
theorem C16_encode_fits (t : Tag) : t.Fits → encode t < 2 ^ 64 := by
  intro h
  cases t with
  | failedProposalExecution i =>
    have h : i < 2 ^ 61 := h
    simp only [encode, maskExecution, mask_or h (by decide : 0 < 2 ^ 3)]; omega
  | failedProposalHook i =>
    have h : i < 2 ^ 61 := h
    simp only [encode, maskProposalHook, mask_or h (by decide : 1 < 2 ^ 3)]; omega
  | failedVoteHook i =>
    have h : i < 2 ^ 61 := h
    simp only [encode, maskVoteHook, mask_or h (by decide : 2 < 2 ^ 3)]; omega
  | failedPreProposeModuleHook => decide
  | preProposeModuleInstantiation => decide

/-- **C16.** The bound 2^61 is sharp: at 2^61 the failed execution of one proposal is attributed to
another one. -/
theorem C16_bound_sharp :
    encode (.failedProposalExecution (2 ^ 61 + 5)) = encode (.failedProposalExecution 5) := by
  decide +kernel

example : (Tag.failedProposalExecution 1234567).Fits := by
  show 1234567 < 2 ^ 61
  decide
example : decode (encode (.failedVoteHook 9)) = .ok (.failedVoteHook 9) := by decide +kernel
example : decode 0b110 = .error .invalid := by decide +kernel

end Verif.Reply
