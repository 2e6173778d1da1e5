import Mathlib.Algebra.Order.Field.Rat
import Mathlib.Algebra.Order.AbsoluteValue.Basic
import Mathlib.Algebra.Field.Power

/-!
# The finite numbers of IEEE 754 binary64

Written from the standard: 53 bits of significand, exponents of the last bit from -1074 to 971.
-/
namespace Verif.Doc

/-- A finite float64. -/
def Float64 (q : ℚ) : Prop := ∃ m e : ℤ, |m| < 2 ^ 53 ∧ -1074 ≤ e ∧ e ≤ 971 ∧ q = m * (2 : ℚ) ^ e

/-- A float64 the last bit of whose significand is 0: the significand has all its 53 bits, unless the exponent is the least one. -/
def LastBitZero (q : ℚ) : Prop :=
  ∃ m e : ℤ, 2 ∣ m ∧ |m| < 2 ^ 53 ∧ (2 ^ 52 ≤ |m| ∨ e = -1074) ∧ q = m * (2 : ℚ) ^ e

/-- Numbers that round to a finite float64: those less than half a unit above the largest one. -/
def InRange (x : ℚ) : Prop := |x| < (2 : ℚ) ^ (1024 : ℤ) - (2 : ℚ) ^ (970 : ℤ)

instance (x : ℚ) : Decidable (InRange x) := by unfold InRange; infer_instance

/-- `q` is the float64 for `x`: no other is nearer, and of two that are equally near it is the even one. -/
structure Nearest64 (x q : ℚ) : Prop where
  float : Float64 q
  near : ∀ q', Float64 q' → |q - x| ≤ |q' - x|
  even : ∀ q', Float64 q' → q' ≠ q → |q' - x| = |q - x| → LastBitZero q

end Verif.Doc
