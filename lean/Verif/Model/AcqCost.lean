import Verif.Model.Acquisition

/-!
# The acquisitions with their weights

One point with the posterior mean `m`, the posterior deviation `s`, the indicator of the constraints `ind` and the cost
`c` given by the user.
-/

namespace GPyOpt

/-- `acquisition_function` (`acquisitions/base.py:33-40`) of `AcquisitionEI` (`EI.py:23-40`): the cost given to the
constructor is passed on (`:25`). -/
noncomputable def eiAcquisition (jitter fmin m s ind c : ℝ) : ℝ := weightedAcq (eiValue jitter fmin m s) ind c

/-- `acquisition_function` of `AcquisitionMPI` (`MPI.py:23-40`): the cost is passed on (`:25`). -/
noncomputable def mpiAcquisition (jitter fmin m s ind c : ℝ) : ℝ := weightedAcq (mpiValue jitter fmin m s) ind c

/-- `acquisition_function` of `AcquisitionLCB` (`LCB.py:27-41`): the cost is not passed on (`:29`), so that the constant
cost 1 is used (`base.py:24-25`, `cost.py:76-80`). -/
noncomputable def lcbAcquisition (w m s ind _c : ℝ) : ℝ := weightedAcq (lcbValue w m s) ind 1

end GPyOpt
