import Verif.Model.FloatAcq

/-!
# Specification: accurate arithmetic
-/

namespace GPyOpt.Spec

/-- `y` is `x` up to the relative error `ε`. -/
def Near (ε x y : ℝ) : Prop := |y - x| ≤ ε * |x|

/-- Every operation and function has the relative error `ε` at most. (Double precision: `ε = 2^-53` for the operations,
a few times that for library functions.) -/
structure Accurate (ε : ℝ) (M : FlMath) : Prop where
  rd : ∀ x, Near ε x (M.rd x)
  exp : ∀ x, Near ε (Real.exp x) (M.exp x)
  erfc : ∀ x, Near ε (erfc x) (M.erfc x)
  sqrt2 : Near ε √2 M.sqrt2
  sqrt2pi : Near ε √(2 * Real.pi) M.sqrt2pi

end GPyOpt.Spec
