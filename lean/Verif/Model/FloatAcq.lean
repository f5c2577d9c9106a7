import Verif.Model.Acquisition

/-!
# Acquisitions in floating-point arithmetic

The formulas of `Model/Acquisition` with every operation followed by a rounding, and with the library's exponential and
complementary error function. No overflow and no underflow.
-/

namespace GPyOpt

/-- Arithmetic: the rounding after every operation, `np.exp`, `scipy.special.erfc`, and the constants `np.sqrt(2)` and
`np.sqrt(2*np.pi)` (`general.py:126-127`). -/
structure FlMath where
  rd : ℝ → ℝ
  exp : ℝ → ℝ
  erfc : ℝ → ℝ
  sqrt2 : ℝ
  sqrt2pi : ℝ

/-- `u` (`general.py:125`). -/
noncomputable def flU (M : FlMath) (jitter fmin m s : ℝ) : ℝ :=
  M.rd (M.rd (M.rd (fmin - m) - jitter) / clipStd s)

/-- `phi` (`general.py:126`). -/
noncomputable def flPhi (M : FlMath) (u : ℝ) : ℝ :=
  M.rd (M.exp (M.rd (-(1 / 2) * M.rd (u ^ 2))) / M.sqrt2pi)

/-- `Phi` (`general.py:127`). -/
noncomputable def flCdf (M : FlMath) (u : ℝ) : ℝ := M.rd (1 / 2 * M.erfc (M.rd (-u / M.sqrt2)))

/-- `AcquisitionEI._compute_acq` (`EI.py:32-40`). -/
noncomputable def flEi (M : FlMath) (jitter fmin m s : ℝ) : ℝ :=
  let u := flU M jitter fmin m s
  M.rd (clipStd s * M.rd (M.rd (u * flCdf M u) + flPhi M u))

/-- `AcquisitionMPI._compute_acq` (`MPI.py:32-40`). -/
noncomputable def flMpi (M : FlMath) (jitter fmin m s : ℝ) : ℝ := flCdf M (flU M jitter fmin m s)

/-- `AcquisitionLCB._compute_acq` (`LCB.py:35-41`). -/
noncomputable def flLcb (M : FlMath) (w m s : ℝ) : ℝ := M.rd (-m + M.rd (w * s))

end GPyOpt
