import Verif.Model.LPSpecial
import Verif.Model.NaN
import Mathlib.Data.EReal.Basic

/-!
# Results, normalization and cost data with infinite numbers

An objective may return `inf` where it cannot be evaluated, and a clock may measure no time.
-/

namespace GPyOpt

/-- `Y_best`, `x_opt` and `fx_opt` (`bo.py:206-212`). -/
structure InfResults where
  yBest : List EReal
  xOpt : Vec
  fxOpt : EReal

/-- `_compute_results` (`bo.py:206-212`) with `best_value` (`util/general.py:131-142`) for outputs without `nan`. -/
noncomputable def infComputeResults (X : Mat) (Y : List EReal) : Py InfResults :=
  match argmin Y with
  | .error e => .error e
  | .ok i => match npGet X i with
    | .error e => .error e
    | .ok x => .ok
      { yBest := (List.range Y.length).map fun k => (Y.take (k + 1)).foldl min (Y.headD ⊤)
        xOpt := x, fxOpt := Y.foldl min (Y.headD ⊤) }

namespace XR

/-- `x - y`. -/
noncomputable def sub (x y : XR) : XR := add x (neg y)

/-- `np.minimum`. -/
noncomputable def min2 : XR → XR → XR
  | .nan, _ => .nan
  | _, .nan => .nan
  | .ninf, _ => .ninf
  | _, .ninf => .ninf
  | .pinf, y => y
  | x, .pinf => x
  | .fin x, .fin y => .fin (min x y)

/-- `np.maximum`. -/
noncomputable def max2 (x y : XR) : XR := neg (min2 (neg x) (neg y))

/-- `np.sqrt`; infinite or `nan` where the argument is, and `nan` for `-inf`. -/
noncomputable def sqrt : XR → XR
  | .nan => .nan
  | .ninf => .nan
  | .pinf => .pinf
  | .fin x => .fin (Real.sqrt x)

/-- `x > 0`. -/
def Pos : XR → Prop
  | .pinf => True
  | .fin x => 0 < x
  | _ => False

end XR

/-- `Y.mean()`. -/
noncomputable def xMean (Y : List XR) : XR := XR.mul (xSum Y) (XR.inv (.fin Y.length))

/-- `Y.std()`. -/
noncomputable def xStd (Y : List XR) : XR :=
  XR.sqrt (xMean (Y.map fun y => XR.mul (XR.sub y (xMean Y)) (XR.sub y (xMean Y))))

/-- `Y.min()` of a non-empty array. -/
noncomputable def xMin (Y : List XR) : XR := Y.foldl XR.min2 (Y.headD .nan)

/-- `Y.max()` of a non-empty array. -/
noncomputable def xMax (Y : List XR) : XR := Y.foldl XR.max2 (Y.headD .nan)

open Classical in
/-- `normalize` (`util/general.py:203-234`) of a column. -/
noncomputable def xNormalize (Y : List XR) (type : String) : Py (List XR) :=
  if type = "stats" then
    let Yn := Y.map fun y => XR.sub y (xMean Y)
    if (xStd Y).Pos then .ok (Yn.map fun y => XR.mul y (XR.inv (xStd Y))) else .ok Yn
  else if type = "maxmin" then
    let Yn := Y.map fun y => XR.sub y (xMin Y)
    let range := XR.sub (xMax Y) (xMin Y)
    if range.Pos then
      .ok ((Yn.map fun y => XR.mul y (XR.inv range)).map fun y => XR.mul (.fin 2) (XR.sub y (.fin (1 / 2))))
    else .ok Yn
  else .error .valueError

/-- The outputs of the cost model, `np.log(cost_x)` (`cost.py:64`), for measured times. -/
noncomputable def xLogTimes (ts : List ℝ) : List XR := ts.map fun t => XR.log (.fin t)

end GPyOpt
