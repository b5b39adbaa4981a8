import Mathlib.Data.Real.Basic
import Mathlib.Tactic.NormNum

/-!
# Specification: IEEE 754 binary64 numbers and rounding to nearest
-/

namespace Spec

/-- The finite binary64 numbers: 53 bits times a power of two in the exponent range. -/
def Binary64 (x : ℝ) : Prop :=
  ∃ m e : ℤ, |m| < 2 ^ 53 ∧ -1074 ≤ e ∧ e ≤ 971 ∧ x = m * (2 : ℝ) ^ e

/-- `fl x` is a binary64 number nearest to `x`. Which of two nearest ones is taken is left open, and so is what happens
beyond `2 ^ 1023` (overflow). The result of every basic operation and of the square root is `fl` of the exact result. -/
def IsRounding (fl : ℝ → ℝ) : Prop :=
  ∀ x, |x| ≤ 2 ^ (1023 : ℤ) → Binary64 (fl x) ∧ ∀ y, Binary64 y → |fl x - x| ≤ |y - x|

end Spec
