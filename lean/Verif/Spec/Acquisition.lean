import Mathlib.Probability.Distributions.Gaussian.Real

/-! Specification of the acquisition criteria as expectations under the posterior, independent of the closed
forms used by the code. -/

namespace GPyOpt.Spec

open MeasureTheory ProbabilityTheory

/-- The normal distribution with mean `m` and deviation `s`. -/
noncomputable def normalLaw (m s : ℝ) : Measure ℝ := gaussianReal m (NNReal.mk (s ^ 2) (sq_nonneg s))

/-- Expected amount by which an observation falls below the target `b`. -/
noncomputable def expectedImprovement (m s b : ℝ) : ℝ := ∫ y, max (b - y) 0 ∂(normalLaw m s)

/-- Probability that an observation is at most the target `b`. -/
noncomputable def probImprovement (m s b : ℝ) : ℝ := (normalLaw m s (Set.Iic b)).toReal

/-- `L` is the derivative of `f` at `x`: `g v` is the rate of change of `f` in every direction `v`. -/
def IsGradientAt {E : Type*} [NormedAddCommGroup E] [NormedSpace ℝ E] (f : E → ℝ) (x : E) (g : E → ℝ) : Prop :=
  ∃ L : E →L[ℝ] ℝ, HasFDerivAt f L x ∧ ∀ v, L v = g v

/-- Probability, mean and variance of a normal variable conditioned on being non-negative. -/
noncomputable def probNonneg (m s : ℝ) : ℝ := ∫ _ in Set.Ici 0, (1 : ℝ) ∂(normalLaw m s)
noncomputable def truncatedMean (m s : ℝ) : ℝ := (∫ x in Set.Ici 0, x ∂(normalLaw m s)) / probNonneg m s
noncomputable def truncatedVar (m s : ℝ) : ℝ :=
  (∫ x in Set.Ici 0, (x - truncatedMean m s) ^ 2 ∂(normalLaw m s)) / probNonneg m s

end GPyOpt.Spec
