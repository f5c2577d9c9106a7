import Mathlib.Algebra.Order.Field.Rat
import Mathlib.Algebra.Order.Field.Power

/-!
# Binary floating-point numbers

Numbers with `p` binary digits and an unbounded exponent (`p = 53`: double precision without overflow and underflow), and
rounding to a nearest one; nothing is said about ties.
-/

namespace GPyOpt.Spec

/-- `x` is a number with `p` binary digits. -/
def IsFloat (p : ℕ) (x : ℚ) : Prop := ∃ m e : ℤ, |m| < 2 ^ p ∧ x = m * (2 : ℚ) ^ e

/-- `rd` rounds every number to a nearest one with `p` binary digits. -/
structure RoundsToNearest (p : ℕ) (rd : ℚ → ℚ) : Prop where
  isFloat : ∀ x, IsFloat p (rd x)
  nearest : ∀ x y, IsFloat p y → |rd x - x| ≤ |y - x|

end GPyOpt.Spec
