import Verif.Base.Core
/-!
# Specification vocabulary for a clock of 64 bits
-/

namespace Verif.Spec.Clock
open Verif

/-- A duration from this block on ends before the 64 bit clock does: heights count blocks, times count nanoseconds. -/
def Fits (b : Block) : Duration → Prop
  | .height n => b.height + n < 2 ^ 64
  | .time s => b.time + s * 1000000000 < 2 ^ 64

/-- A duration after this expiration ends before the 64 bit clock does. -/
def FitsAfter : Expiration → Duration → Prop
  | .atHeight h, .height n => h + n < 2 ^ 64
  | .atTime t, .time s => t + s * 1000000000 < 2 ^ 64
  | _, _ => True

/-- A duration in seconds that no 64 bit clock in nanoseconds can count: 584 years or more. -/
def Endless : Duration → Prop
  | .height _ => False
  | .time s => 2 ^ 64 ≤ s * 1000000000

/-- A duration of at most 272 years, or of 2^62 blocks. -/
def Reasonable : Duration → Prop
  | .height n => n ≤ 2 ^ 62
  | .time s => s ≤ 2 ^ 33

/-- A block before the year 2262 and below height 2^63. -/
def Ours (b : Block) : Prop := b.height < 2 ^ 63 ∧ b.time < 2 ^ 63

end Verif.Spec.Clock
