import Verif.Py
import Mathlib.Analysis.Real.Sqrt

/-!
# Model of `GPyOpt/util/general.py`: normalization, merging and best values
-/

namespace GPyOpt

/-! ## `normalize` (`general.py:203-234`) -/

/-- `Y.mean()` -/
noncomputable def meanR (Y : List ℝ) : ℝ := Y.sum / Y.length

/-- `Y.std()` -/
noncomputable def stdR (Y : List ℝ) : ℝ := Real.sqrt ((Y.map fun y => (y - meanR Y) ^ 2).sum / Y.length)

/-- `Y.min()` of a non-empty array -/
noncomputable def minR (Y : List ℝ) : ℝ := Y.foldl min (Y.headD 0)

/-- `Y.max()` of a non-empty array -/
noncomputable def maxR (Y : List ℝ) : ℝ := Y.foldl max (Y.headD 0)

open Classical in
/-- `normalize` (`general.py:203-234`). `shape` is the shape of the array and `Y` its entries in order;
the result has the same shape. The empty array is excluded (numpy returns `nan` or raises). -/
noncomputable def normalize (shape : List Nat) (Y : List ℝ) (type : String) : Py (List ℝ) :=
  if shape = [] ∨ Y = [] then .error .unmodelled
  else if shape.foldl max 0 ≠ shape.foldl (· * ·) 1 then .error .notImplemented
  else if type = "stats" then
    let Yn := Y.map fun y => y - meanR Y
    if 0 < stdR Y then .ok (Yn.map fun y => y / stdR Y) else .ok Yn
  else if type = "maxmin" then
    let Yn := Y.map fun y => y - minR Y
    let range := maxR Y - minR Y
    if 0 < range then .ok ((Yn.map fun y => y / range).map fun y => 2 * (y - 1 / 2)) else .ok Yn
  else .error .valueError

/-! ## `merge_values` (`general.py:168-200`) -/

/-- The arguments `values_to_array` distinguishes: a tuple, a one- or two-dimensional array, a number. -/
inductive Values (α : Type)
  | tuple (xs : List α)
  | array1 (xs : List α)
  | array2 (rows : List (List α))
  | scalar (x : α)

/-- `values_to_array` (`general.py:168-180`). The test `type(np.int64)` of the last branch is always
true. -/
def valuesToArray {α : Type} : Values α → List (List α)
  | .tuple xs => xs.map fun x => [x]
  | .array1 xs => [xs]
  | .array2 rows => rows
  | .scalar x => [[x]]

/-- `merge_values` (`general.py:183-200`). `size == 0` holds of arrays without rows or columns. -/
def mergeValues {α : Type} (v1 v2 : Values α) : List (List α) :=
  let a1 := valuesToArray v1
  let a2 := valuesToArray v2
  if a1.flatten.length = 0 then a2
  else if a2.flatten.length = 0 then a1
  else (a1.map fun r1 => a2.map fun r2 => r1 ++ r2).flatten

/-! ## `best_value` (`general.py:131-142`) and `best_guess` (`general.py:49-60`) -/

/-- `best_value(Y, sign)` -/
def bestValueSign {α : Type} [LinearOrder α] (dflt : α) (Y : List α) (sign : Int) : List α :=
  (List.range Y.length).map fun i =>
    let pre := Y.take (i + 1)
    if sign = 1 then pre.foldl min (pre.headD dflt) else pre.foldl max (pre.headD dflt)

/-- `best_guess(f, X)`; `f` maps a list of locations to the list of their values. -/
def bestGuess (f : Mat → Vec) (X : Mat) : Py Vec :=
  mapE (fun i => do
    let ff := f (X.take (i + 1))
    let k ← argmin ff
    npGet ff k) (List.range X.length)

end GPyOpt
