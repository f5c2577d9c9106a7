import Verif.Model.Report
import Mathlib.Algebra.Order.Floor.Defs

/-!
# What `plotting/plots_bo.py` and the example functions draw

Real arithmetic. `matplotlib` is not modelled: `contourf(X1, X2, Z)` is taken to show, at the point `(X1[j], X2[i])`, the
value `Z[i, j]`, and `ylim(a, b)` to show what lies between `a` and `b`.
-/

namespace GPyOpt

/-- `np.arange(lo, hi, step)` (`plots_bo.py:57`, `experiments1d.py:15`). -/
noncomputable def arange (lo hi step : ℝ) : List ℝ := (List.range ⌈(hi - lo) / step⌉₊).map fun i : Nat => lo + (i : ℝ) * step

/-- Python's `min` and `max` of a non-empty sequence. -/
noncomputable def listMin : List ℝ → Py ℝ
  | [] => .error .valueError
  | v :: vs => .ok (vs.foldl min v)

noncomputable def listMax : List ℝ → Py ℝ
  | [] => .error .valueError
  | v :: vs => .ok (vs.foldl max v)

/-- What the plot of a model with one input shows. -/
structure Plot1 where
  grid : List ℝ
  mean : List ℝ
  lower : List ℝ
  upper : List ℝ
  /-- the acquisition; `none`: the values are `nan` and no curve is drawn -/
  curve : Option (List ℝ)
  ylim : ℝ × ℝ

/-- `plot_acquisition` for one input (`plots_bo.py:57-80`): `acq` is the acquisition, `predict` gives mean and variance. -/
noncomputable def plotOne (lo hi : ℝ) (acq : ℝ → ℝ) (predict : ℝ → ℝ × ℝ) : Py Plot1 :=
  let grid := arange lo hi (1 / 1000)
  let mean := grid.map fun x => (predict x).1
  let lower := grid.map fun x => (predict x).1 - 196 / 100 * √(predict x).2
  let upper := grid.map fun x => (predict x).1 + 196 / 100 * √(predict x).2
  match acquNormalized (grid.map acq) with
  | .error e => .error e
  | .ok norm => match listMax upper with
    | .error e => .error e
    | .ok top => match listMin lower with
      | .error e => .error e
      | .ok bottom =>
        let factor := top - bottom
        .ok { grid := grid, mean := mean, lower := lower, upper := upper
              curve := norm.map (List.map fun t => 2 / 10 * factor * t - |bottom| - 25 / 100 * factor)
              ylim := (bottom - 25 / 100 * factor, top + 5 / 100 * factor) }

/-- `np.linspace(lo, hi, n)` (`plots_bo.py:102-103`, `experiments2d.py:22-23`), for `n ≥ 2`. -/
noncomputable def linspace (lo hi : ℝ) (n : Nat) : List ℝ :=
  (List.range n).map fun k : Nat => lo + (k : ℝ) * ((hi - lo) / ((n : ℝ) - 1))

/-- `np.meshgrid` and `np.hstack` of the reshaped arrays (`plots_bo.py:104-105`, `experiments2d.py:24-25`): the second
coordinate changes with the row of the mesh, the first with the column. -/
def meshRows (X1 X2 : List ℝ) : List (ℝ × ℝ) := X2.flatMap fun b => X1.map fun a => (a, b)

/-- `z.reshape(n, n)` (`plots_bo.py:108-111`, `experiments2d.py:36`), entry `(i, j)`. -/
def reshapeEntry (n : Nat) (z : List ℝ) (i j : Nat) : Option ℝ := if j < n then z[n * i + j]? else none

/-- `contourf(X1, X2, Z)` (`plots_bo.py:114`, `:126`, `:138`, `experiments2d.py:36`): the points and values shown. -/
def contour (X1 X2 : List ℝ) (Z : Nat → Nat → Option ℝ) : List ((ℝ × ℝ) × Option ℝ) :=
  X2.zipIdx.flatMap fun (b, i) => X1.zipIdx.map fun (a, j) => ((a, b), Z i j)

/-- One contour plot of a function of rows (`plots_bo.py:102-114` with `n = 200`, `experiments2d.py:21-36` with
`n = 100`). -/
noncomputable def contourOf (n : Nat) (b1 b2 : ℝ × ℝ) (f : ℝ × ℝ → ℝ) : List ((ℝ × ℝ) × Option ℝ) :=
  let X1 := linspace b1.1 b1.2 n
  let X2 := linspace b2.1 b2.2 n
  contour X1 X2 (reshapeEntry n ((meshRows X1 X2).map f))

/-- Where the suggested locations are marked: for one input the last row (`plots_bo.py:72`), for two inputs columns 0 and 1
(`plots_bo.py:140`), otherwise nowhere. `suggested` is what `suggest_next_locations` returns (`bo.py:294`). -/
def plotSuggested (inputDim : Nat) (suggested : Mat) : Py Mat :=
  if inputDim = 1 then
    match suggested.getLast? with
    | none => .error .indexError
    | some r => .ok [r]
  else if inputDim = 2 then
    mapE (fun r => match npGet r 0, npGet r 1 with
      | .ok a, .ok b => .ok [a, b]
      | .error e, _ => .error e
      | _, .error e => .error e) suggested
  else .ok []

end GPyOpt
