import Mathlib.Data.Rat.Defs
import Mathlib.Algebra.Order.Ring.Rat
import Mathlib.Algebra.Order.Group.Unbundled.Abs
import Mathlib.Algebra.Order.Group.Abs

/-!
# Doubles and rounding, after IEEE 754

Independent of `Verif.Model.Binary64`.
-/

namespace Arctic.Ieee

/-- The numbers with a significand of 53 bits and an exponent in the range of binary64, subnormal numbers included. -/
def Finite (q : ℚ) : Prop := ∃ m e : ℤ, |m| < 2 ^ 53 ∧ -1074 ≤ e ∧ e ≤ 971 ∧ q = m * 2 ^ e

/-- `v` is `q` rounded to nearest, ties to even: no double is nearer, and of two doubles at the same distance, which are
neighbours, `v` is the one with the even significand. -/
structure Nearest (q v : ℚ) : Prop where
  finite : Finite v
  nearest : ∀ w, Finite w → |q - v| ≤ |q - w|
  even : ∀ w, Finite w → w ≠ v → |q - w| = |q - v| →
    ∃ m e : ℤ, v = 2 * m * 2 ^ e ∧ (w = (2 * m + 1) * 2 ^ e ∨ w = (2 * m - 1) * 2 ^ e)

/-- From here on numbers are rounded to infinity. -/
def overflow : ℚ := 2 ^ 1024 - 2 ^ 970

end Arctic.Ieee
