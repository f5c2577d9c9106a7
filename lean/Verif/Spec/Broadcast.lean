import Verif.Model.Broadcast

/-!
# Specification: arrays with one row for each location
-/

namespace GPyOpt.Spec

/-- An array of shape `(n, c)` with the entries `f`. -/
def IsMat (A : BArr) (n c : Nat) (f : Nat → Nat → ℝ) : Prop :=
  A.vec = false ∧ A.r = n ∧ A.c = c ∧ ∀ i < n, ∀ j < c, A.e i j = f i j

/-- An array of shape `(n, 1)`: one number for each location. -/
def IsColumn (A : BArr) (n : Nat) (f : Nat → ℝ) : Prop := IsMat A n 1 fun i _ => f i

/-- An array of shape `(n,)`. -/
def IsVector (A : BArr) (n : Nat) (f : Nat → ℝ) : Prop :=
  A.vec = true ∧ A.r = 1 ∧ A.c = n ∧ ∀ j < n, A.e 0 j = f j

/-- The call returns an array for which `P` holds. -/
def Returns (r : Py BArr) (P : BArr → Prop) : Prop := ∃ A, r = .ok A ∧ P A

end GPyOpt.Spec
