import Verif.Base.Core
/-!
# Versions of code, as people write and compare them

No contract is mentioned here.
-/

namespace Verif.Spec.Versions

/-- A version like 2.5.0. (Pre-release versions and build numbers, which no contract of the repository has, are left
out.) -/
structure Version where
  major : Nat
  minor : Nat
  patch : Nat
  deriving DecidableEq, Repr

/-- `v` came before `w`: the numbers are compared one after the other. -/
def Version.before (v w : Version) : Prop :=
  v.major < w.major ∨ (v.major = w.major ∧ (v.minor < w.minor ∨ (v.minor = w.minor ∧ v.patch < w.patch)))

instance (v w : Version) : Decidable (v.before w) := by unfold Version.before; infer_instance

/-- A number in decimal digits, as the bytes of its characters. -/
def decimal (n : Nat) : List Nat := if n < 10 then [48 + n] else decimal (n / 10) ++ [48 + n % 10]
termination_by n
decreasing_by omega

/-- A version as it is written: `major.minor.patch`. -/
def Version.written (v : Version) : List Nat := decimal v.major ++ 46 :: (decimal v.minor ++ 46 :: decimal v.patch)

/-- The numbers of two versions are written with as many digits. -/
def Version.Alike (v w : Version) : Prop :=
  (decimal v.major).length = (decimal w.major).length ∧ (decimal v.minor).length = (decimal w.minor).length ∧
    (decimal v.patch).length = (decimal w.patch).length

/-- The latest of some versions, from `v` on. -/
def latest (v : Version) : List Version → Version
  | [] => v
  | w :: rest => latest (if v.before w then w else v) rest

end Verif.Spec.Versions
