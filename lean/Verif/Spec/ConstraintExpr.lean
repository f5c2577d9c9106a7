import Verif.Model.ConstraintExpr

/-!
# Specification: what a constraint means at one location
-/

namespace GPyOpt.Spec

/-- The coordinate of a location with this index, negative ones count from the end. -/
def coord (row : Vec) (j : Int) : ℚ := row.getD (if 0 ≤ j then j.toNat else (j + row.length).toNat) 0

/-- The value at one location of an expression of the two classes below: `np.sum(x, axis=1)` is the sum of the
coordinates. -/
def meaning (row : Vec) : NExpr → ℚ
  | .num q => q
  | .whole => row.getD 0 0
  | .col j => coord row j
  | .cols j => row.getD j 0
  | .elem _ j => coord row j
  | .sumAll e => meaning row e
  | .sumRows _ => row.sum
  | .neg e => -meaning row e
  | .abs e => |meaning row e|
  | .pow e k => meaning row e ^ k
  | .add a b => meaning row a + meaning row b
  | .sub a b => meaning row a - meaning row b
  | .mul a b => meaning row a * meaning row b

/-- Expressions of numbers, columns `x[:,j]` with existing `j`, and `np.sum(x, axis=1)`, for locations with `d`
coordinates. -/
def Columns (d : Nat) : NExpr → Prop
  | .num _ => True
  | .col j => -(d : Int) ≤ j ∧ j < d
  | .sumRows .whole => True
  | .neg e | .abs e | .pow e _ => Columns d e
  | .add a b | .sub a b | .mul a b => Columns d a ∧ Columns d b
  | _ => False

/-- Expressions of numbers and slices `x[:,j:j+1]`, or `x` itself in one dimension. -/
def Slices (d : Nat) : NExpr → Prop
  | .num _ => True
  | .whole => d = 1
  | .cols j => j < d
  | .neg e | .abs e | .pow e _ => Slices d e
  | .add a b | .sub a b | .mul a b => Slices d a ∧ Slices d b
  | _ => False

/-- The expression depends on the location. -/
def UsesX : NExpr → Prop
  | .num _ => False
  | .sumAll e | .sumRows e | .neg e | .abs e | .pow e _ => UsesX e
  | .add a b | .sub a b | .mul a b => UsesX a ∨ UsesX b
  | _ => True

end GPyOpt.Spec
