import Verif.Spec.Space
import Verif.Model.Design

/-! # Specification vocabulary for experiment designs and constraints -/

namespace GPyOpt.Spec

/-- Domains a design can sample from: non-empty, and the labels of a categorical variable of `K`
labels are among `0..K-1`. -/
def Samplable : Kind → Prop
  | .continuous lo hi => lo ≤ hi
  | .discrete vals => vals ≠ []
  | .categorical labels => labels ≠ [] ∧ ∀ l ∈ labels, ∃ k < labels.length, l = (k : ℚ)
  | .bandit arms => arms ≠ []

/-- The values of the continuous variables of an objective row, in order. -/
def contPart : List Kind → Vec → Vec
  | .continuous _ _ :: ks, x :: xs => x :: contPart ks xs
  | _ :: ks, _ :: xs => contPart ks xs
  | _, _ => []

/-- Uniform numbers are in the unit interval. -/
def UnitDraw (d : Draw) : Prop := ∀ k r, 0 ≤ d.unif k r ∧ d.unif k r ≤ 1

/-- Number of continuous variables. -/
def numContinuous (ks : List Kind) : Nat := (ks.filter Kind.isContinuous).length

end GPyOpt.Spec
