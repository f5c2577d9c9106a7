import Verif.Model.FloatAcq

/-!
# Gradients and weights of acquisitions in floating-point arithmetic

What `Model/FloatAcq` leaves out: the gradients of expected improvement and of the probability of improvement, and the division by
the cost. Underflow is a property of the arithmetic `FlMath`, see `Props/Underflow`.
-/

namespace GPyOpt

/-- One component of the gradient of `AcquisitionEI` (`EI.py:42-51`). -/
noncomputable def flEiGrad (M : FlMath) (jitter fmin m s dm ds : ℝ) : ℝ :=
  let u := flU M jitter fmin m s
  M.rd (M.rd (ds * flPhi M u) - M.rd (flCdf M u * dm))

/-- One component of the gradient of `AcquisitionMPI` (`MPI.py:42-51`). -/
noncomputable def flMpiGrad (M : FlMath) (jitter fmin m s dm ds : ℝ) : ℝ :=
  let u := flU M jitter fmin m s
  M.rd (-(M.rd (flPhi M u / clipStd s)) * M.rd (dm + M.rd (ds * u)))

/-- `acquisition_function` (`acquisitions/base.py:33-40`): `a` is the acquisition, `ind` the indicator of the constraints. -/
noncomputable def flWeighted (M : FlMath) (a ind cost : ℝ) : ℝ := M.rd (-(M.rd (a * ind)) / cost)

/-- One component of the gradient in `acquisition_function_withGradients` (`acquisitions/base.py:43-52`): `da` is that of the
acquisition, `dcost` that of the cost. -/
noncomputable def flWeightedGrad (M : FlMath) (a da ind cost dcost : ℝ) : ℝ :=
  M.rd (-(M.rd (M.rd (M.rd (da * cost) - M.rd (a * dcost)) / M.rd (cost ^ 2))) * ind)

end GPyOpt
