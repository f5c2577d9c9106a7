import Verif.Py
import Mathlib.Analysis.SpecialFunctions.Trigonometric.Basic
import Mathlib.Analysis.SpecialFunctions.Pow.Real

/-!
# Model of the example objectives (`GPyOpt/objective_examples`)

Real arithmetic. `f` of a class is split into the value of a row without noise (`…F`) and the evaluation of an
array (`benchEval`), which checks the shape and adds the noise. The attributes `min` and `fmin`, which
the code states as literals, appear in the theorems (`Props/Benchmarks.lean`).
-/

namespace GPyOpt

/-! ## Two-dimensional functions (`experiments2d.py`) -/

/-- `rosenbrock` (`experiments2d.py:59-60`, `:71`). -/
def rosenbrockF (x1 x2 : ℝ) : ℝ := 100 * (x2 - x1 ^ 2) ^ 2 + (x1 - 1) ^ 2
/-- `beale` (`experiments2d.py:90-91`, `:102`, `:107`): note the sign at `:107`. -/
def bealeF (x1 x2 : ℝ) : ℝ := -(100 * (x2 - x1 ^ 2) ^ 2 + (x1 - 1) ^ 2)
/-- `dropwave` (`experiments2d.py:121-122`, `:133`, `:138`): the sign is changed twice. -/
noncomputable def dropwaveF (x1 x2 : ℝ) : ℝ :=
  -(-(1 + Real.cos (12 * √(x1 ^ 2 + x2 ^ 2))) / (1 / 2 * (x1 ^ 2 + x2 ^ 2) + 2))
/-- `cosines` (`experiments2d.py:164-166`, `:171`). -/
noncomputable def cosinesF (x1 x2 : ℝ) : ℝ :=
  let u := 16 / 10 * x1 - 1 / 2
  let v := 16 / 10 * x2 - 1 / 2
  (-1 : ℝ) * (1 - (u ^ 2 + v ^ 2 - 3 / 10 * Real.cos (3 * Real.pi * u) - 3 / 10 * Real.cos (3 * Real.pi * v)))
/-- `branin` with its default coefficients (`experiments2d.py:185-196`, `:211`). -/
noncomputable def braninF (x1 x2 : ℝ) : ℝ :=
  1 * (x2 - 51 / 10 / (4 * Real.pi ^ 2) * x1 ^ 2 + 5 / Real.pi * x1 - 6) ^ 2
    + 10 * (1 - 1 / (8 * Real.pi)) * Real.cos x1 + 10
/-- `goldstein` (`experiments2d.py:244-250`). -/
def goldsteinF (x1 x2 : ℝ) : ℝ :=
  let fact1a := (x1 + x2 + 1) ^ 2
  let fact1b := 19 - 14 * x1 + 3 * x1 ^ 2 - 14 * x2 + 6 * x1 * x2 + 3 * x2 ^ 2
  let fact1 := 1 + fact1a * fact1b
  let fact2a := (2 * x1 - 3 * x2) ^ 2
  let fact2b := 18 - 32 * x1 + 12 * x1 ^ 2 + 48 * x2 - 36 * x1 * x2 + 27 * x2 ^ 2
  let fact2 := 30 + fact2a * fact2b
  fact1 * fact2
/-- `sixhumpcamel` (`experiments2d.py:284-287`). -/
noncomputable def camelF (x1 x2 : ℝ) : ℝ :=
  (4 - 21 / 10 * x1 ^ 2 + x1 ^ 4 / 3) * x1 ^ 2 + x1 * x2 + (-4 + 4 * x2 ^ 2) * x2 ^ 2
/-- `mccormick` (`experiments2d.py:321-325`). -/
noncomputable def mccormickF (x1 x2 : ℝ) : ℝ :=
  Real.sin (x1 + x2) + (x1 - x2) ^ 2 + -(3 / 2) * x1 + 5 / 2 * x2 + 1
/-- `powers` (`experiments2d.py:358`). -/
def powersF (x1 x2 : ℝ) : ℝ := |x1| ^ 2 + |x2| ^ 3
/-- `eggholder` (`experiments2d.py:384`). -/
noncomputable def eggholderF (x1 x2 : ℝ) : ℝ :=
  -(x2 + 47) * Real.sin √|x2 + x1 / 2 + 47| + -x1 * Real.sin √|x1 - (x2 + 47)|

/-! ## One dimension (`experiments1d.py`) -/

/-- `forrester` (`experiments1d.py:39`). -/
noncomputable def forresterF (x : ℝ) : ℝ := (6 * x - 2) ^ 2 * Real.sin (12 * x - 4)

/-! ## Any dimension (`experimentsNd.py`) -/

/-- `alpine1` (`experimentsNd.py:31`). -/
noncomputable def alpine1F {d : Nat} (x : Fin d → ℝ) : ℝ := ∑ i, |x i * Real.sin (x i) + 1 / 10 * x i|
/-- `alpine2` (`experimentsNd.py:62`, `:67`): the last entry of a cumulative product is the product. -/
noncomputable def alpine2F {d : Nat} (x : Fin d → ℝ) : ℝ := -((∏ i, √(x i)) * ∏ i, Real.sin (x i))
/-- `gSobol` (`experimentsNd.py:93-94`). -/
noncomputable def gSobolF {d : Nat} (a x : Fin d → ℝ) : ℝ := ∏ i, (|4 * x i - 2| + a i) / (1 + a i)
/-- `ackley` (`experimentsNd.py:127`). -/
noncomputable def ackleyF {d : Nat} (x : Fin d → ℝ) : ℝ :=
  20 + Real.exp 1 - 20 * Real.exp (-(2 / 10) * √((∑ i, x i ^ 2) / d))
    - Real.exp ((∑ i, Real.cos (2 * Real.pi * x i)) / d)

/-! ## Evaluation of arrays -/

/-- A two-dimensional array with `rows` rows and `cols` columns: entries by position. -/
structure Arr where
  rows : Nat
  cols : Nat
  at' : Nat → Nat → ℝ

/-- `reshape` (`util/general.py:76-84`) on a two-dimensional array: an array of `inputDim` entries becomes one
row. -/
def benchReshape (inputDim : Nat) (X : Arr) : Arr :=
  if X.rows * X.cols = inputDim then
    { rows := 1, cols := inputDim, at' := fun _ j => X.at' (j / X.cols) (j % X.cols) }
  else X

/-- What a call returns: an array or the string `'Wrong input dimension'`. -/
inductive BenchOut
  | array (a : Arr)
  | string

/-- Addition of arrays with broadcasting of a column (`fval.reshape(n,1)`) and a second array. -/
def addColumn (n : Nat) (fval : Nat → ℝ) (noise : Arr) : Arr :=
  { rows := n, cols := noise.cols, at' := fun i j => fval i + noise.at' (if noise.rows = 1 then 0 else i) j }

/-- The common body of the methods `f` (e.g. `experiments2d.py:66-76`): `g` is the value of a row, `noise` the
numbers drawn by `np.random.normal` (zeros without noise). `checked` tells whether the number of columns is
checked; the functions of any dimension do not check it (`experimentsNd.py:29-36`). `flatNoise` is true where the
noise is not made a column (`alpine1` with noise, `experimentsNd.py:35`): then numpy broadcasts a row. -/
def benchEval (inputDim : Nat) (checked flatNoise : Bool) (g : (Fin inputDim → ℝ) → ℝ) (noise : Nat → ℝ) (X : Arr) :
    BenchOut :=
  let Y := benchReshape inputDim X
  if checked ∧ Y.cols ≠ inputDim then .string
  else .array (addColumn Y.rows (fun i => g fun j => Y.at' i j)
    (if flatNoise then { rows := 1, cols := Y.rows, at' := fun _ j => noise j }
     else { rows := Y.rows, cols := 1, at' := fun i _ => noise i }))

end GPyOpt
