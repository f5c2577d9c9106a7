import Verif.Model.Benchmarks

/-!
# Model of the constructor of `gSobol` (`GPyOpt/objective_examples/experimentsNd.py:69-89`)

The coefficients are given as a numpy array. Real arithmetic.
-/

namespace GPyOpt

/-- `S_coef` (`experimentsNd.py:86`). -/
noncomputable def gSobolCoef {d : Nat} (a : Fin d → ℝ) (i : Fin d) : ℝ :=
  (1 / (3 * (1 + a i) ^ 2)) / (∏ j, (1 + 1 / (3 * (1 + a j) ^ 2)) - 1)

open Classical in
/-- `gSobol.__init__` (`experimentsNd.py:76-88`): bounds, which are `(-4, 6)` for every variable if they are not given
(`:80-81`), and `S_coef`. If a coefficient is not positive, the text is returned from `__init__` (`:85`), which is a
`TypeError`. -/
noncomputable def gSobolInit {d : Nat} (a : Fin d → ℝ) (bounds : Option (Fin d → ℝ × ℝ)) :
    Py ((Fin d → ℝ × ℝ) × (Fin d → ℝ)) :=
  if ∀ i, 0 < a i then .ok (bounds.getD fun _ => (-4, 6), gSobolCoef a) else .error .typeError

end GPyOpt
