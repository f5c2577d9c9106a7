import Verif.Model.GPModel
import Mathlib.Analysis.SpecialFunctions.Gaussian.GaussianIntegral
import Mathlib.Analysis.Real.Sqrt

/-!
# Model of `GPyOpt/acquisitions` and of `get_quantiles`: values and gradients

Real arithmetic. The code works on arrays of points elementwise; the model is about one point, and one
direction of a gradient. `m`, `s` are the posterior mean and deviation at the point, `dm`, `ds` their
derivatives in the direction.
-/

namespace GPyOpt

/-- `scipy.special.erfc`, by its definition. -/
noncomputable def erfc (x : ℝ) : ℝ := 2 / √Real.pi * ∫ t in Set.Ioi x, Real.exp (-t ^ 2)

/-- Clipping of the deviation in `get_quantiles` (`util/general.py:121-124`). For arrays it is done in
place, so the caller uses the clipped deviation too. -/
noncomputable def clipStd (s : ℝ) : ℝ := if s < 1 / 10 ^ 10 then 1 / 10 ^ 10 else s

/-- `phi` (`util/general.py:126`). -/
noncomputable def npdf (u : ℝ) : ℝ := Real.exp (-(1 / 2) * u ^ 2) / √(2 * Real.pi)

/-- `Phi` (`util/general.py:127`). -/
noncomputable def ncdf (u : ℝ) : ℝ := 1 / 2 * erfc (-u / √2)

/-- What `get_quantiles` leaves to its caller (`util/general.py:113-128`): `phi`, `Phi`, `u` and the
deviation clipped in place. -/
structure Quantiles where
  phi : ℝ
  Phi : ℝ
  u : ℝ
  s : ℝ

/-- `get_quantiles` (`util/general.py:113-128`). -/
noncomputable def getQuantiles (jitter fmin m s : ℝ) : Quantiles :=
  let s' := clipStd s
  let u := (fmin - m - jitter) / s'
  { phi := npdf u, Phi := ncdf u, u := u, s := s' }

/-- `AcquisitionEI._compute_acq` (`EI.py:32-40`). -/
noncomputable def eiValue (jitter fmin m s : ℝ) : ℝ :=
  let q := getQuantiles jitter fmin m s
  q.s * (q.u * q.Phi + q.phi)

/-- `AcquisitionEI._compute_acq_withGradients` (`EI.py:42-51`): value and derivative. -/
noncomputable def eiWithGrad (jitter fmin m s dm ds : ℝ) : ℝ × ℝ :=
  let q := getQuantiles jitter fmin m s
  (q.s * (q.u * q.Phi + q.phi), ds * q.phi - q.Phi * dm)

/-- `AcquisitionMPI._compute_acq` (`MPI.py:32-40`). -/
noncomputable def mpiValue (jitter fmin m s : ℝ) : ℝ := (getQuantiles jitter fmin m s).Phi

/-- `AcquisitionMPI._compute_acq_withGradients` (`MPI.py:42-51`). -/
noncomputable def mpiWithGrad (jitter fmin m s dm ds : ℝ) : ℝ × ℝ :=
  let q := getQuantiles jitter fmin m s
  (q.Phi, -(q.phi / q.s) * (dm + ds * q.u))

/-- `AcquisitionLCB._compute_acq` (`LCB.py:35-41`). -/
def lcbValue (w m s : ℝ) : ℝ := -m + w * s

/-- `AcquisitionLCB._compute_acq_withGradients` (`LCB.py:43-50`). -/
def lcbWithGrad (w m s dm ds : ℝ) : ℝ × ℝ := (-m + w * s, -dm + w * ds)

/-- Prediction of one hyper-parameter sample of the MCMC model: mean, deviation, incumbent and
derivatives. -/
structure Sample where
  m : ℝ
  s : ℝ
  fmin : ℝ
  dm : ℝ := 0
  ds : ℝ := 0

/-- `f_acqu/(len(means))` with `f_acqu` summed from 0 over the samples (`EI_mcmc.py:35-39`,
`MPI_mcmc.py:35-39`, `LCB_mcmc.py:31-34`): without samples a division by zero. -/
noncomputable def mcmcAverage (term : Sample → ℝ) (samples : List Sample) : Py ℝ :=
  if samples = [] then .error .zeroDivision
  else .ok (samples.foldl (fun acc x => acc + term x) 0 / samples.length)

/-- The loop with gradients (`EI_mcmc.py:47-59`, `MPI_mcmc.py:47-59`, `LCB_mcmc.py:40-52`), where the sums
start with the first term; without samples `None / 0` is a `TypeError`. -/
noncomputable def mcmcAverageGrad (term : Sample → ℝ × ℝ) : List Sample → Py (ℝ × ℝ)
  | [] => .error .typeError
  | x :: xs =>
    let r := xs.foldl (fun acc y => (acc.1 + (term y).1, acc.2 + (term y).2)) (term x)
    .ok (r.1 / ((x :: xs).length : ℕ), r.2 / ((x :: xs).length : ℕ))

/-- The term of one sample in `AcquisitionEI_MCMC` (`EI_mcmc.py:37-38`): note the sign of the jitter. -/
noncomputable def eiMcmcTerm (jitter : ℝ) (x : Sample) : ℝ :=
  let q := getQuantiles jitter x.fmin x.m x.s
  (x.fmin - x.m + jitter) * q.Phi + q.s * q.phi

/-- The term of one sample with gradient (`EI_mcmc.py:50-52`). -/
noncomputable def eiMcmcTermGrad (jitter : ℝ) (x : Sample) : ℝ × ℝ :=
  let q := getQuantiles jitter x.fmin x.m x.s
  ((x.fmin - x.m + jitter) * q.Phi + q.s * q.phi, x.ds * q.phi - q.Phi * x.dm)

/-- `AcquisitionEI_MCMC._compute_acq` (`EI_mcmc.py:29-39`). -/
noncomputable def eiMcmcValue (jitter : ℝ) (l : List Sample) : Py ℝ := mcmcAverage (eiMcmcTerm jitter) l

/-- `AcquisitionEI_MCMC._compute_acq_withGradients` (`EI_mcmc.py:41-59`). -/
noncomputable def eiMcmcWithGrad (jitter : ℝ) (l : List Sample) : Py (ℝ × ℝ) :=
  mcmcAverageGrad (eiMcmcTermGrad jitter) l

/-- `AcquisitionMPI_MCMC._compute_acq` (`MPI_mcmc.py:29-39`). -/
noncomputable def mpiMcmcValue (jitter : ℝ) (l : List Sample) : Py ℝ :=
  mcmcAverage (fun x => (getQuantiles jitter x.fmin x.m x.s).Phi) l

/-- `AcquisitionMPI_MCMC._compute_acq_withGradients` (`MPI_mcmc.py:41-59`). -/
noncomputable def mpiMcmcWithGrad (jitter : ℝ) (l : List Sample) : Py (ℝ × ℝ) :=
  mcmcAverageGrad (fun x => mpiWithGrad jitter x.fmin x.m x.s x.dm x.ds) l

/-- `AcquisitionLCB_MCMC._compute_acq` (`LCB_mcmc.py:26-34`). -/
noncomputable def lcbMcmcValue (w : ℝ) (l : List Sample) : Py ℝ := mcmcAverage (fun x => -x.m + w * x.s) l

/-- `AcquisitionLCB_MCMC._compute_acq_withGradients` (`LCB_mcmc.py:36-52`). -/
noncomputable def lcbMcmcWithGrad (w : ℝ) (l : List Sample) : Py (ℝ × ℝ) :=
  mcmcAverageGrad (fun x => lcbWithGrad w x.m x.s x.dm x.ds) l

/-- `AcquisitionBase.acquisition_function` (`acquisitions/base.py:33-40`): acquisition `f`, indicator of the
constraints `ind` and cost `c` at the point. -/
noncomputable def weightedAcq (f ind c : ℝ) : ℝ := -(f * ind) / c

/-- `AcquisitionBase.acquisition_function_withGradients` (`acquisitions/base.py:43-52`). -/
noncomputable def weightedAcqGrad (f df ind c dc : ℝ) : ℝ × ℝ :=
  (-(f / c) * ind, -((df * c - f * dc) / c ^ 2) * ind)

/-- The derivative of the deviation reported by `predict_withGradients` (`gpmodel.py:137-140`, the same in
`GPModel_MCMC`, `:314-317`). -/
noncomputable def reportedStdGrad (v dv : ℝ) : ℝ := dv / (2 * clippedStd v)

end GPyOpt
