import Verif.Model.BO
import Verif.Model.General

/-!
# Results and normalization with `nan` outputs

An objective that fails often returns `nan`. `none` is `nan`; numpy's reductions return `nan` if an entry is `nan`,
arithmetic with `nan` is `nan`, and comparisons with `nan` are false.
-/

namespace GPyOpt

section
variable {α : Type} [LinearOrder α]

/-- The scanning loop of `np.argmin`: it stops at the first `nan`. -/
def nanArgminFrom : List (Option α) → (pos best : Nat) → (val : α) → Nat
  | [], _, best, _ => best
  | none :: _, pos, _, _ => pos
  | some y :: ys, pos, best, val =>
    if y < val then nanArgminFrom ys (pos + 1) pos y else nanArgminFrom ys (pos + 1) best val

/-- `np.argmin`. -/
def nanArgmin : List (Option α) → Py Nat
  | [] => .error .valueError
  | none :: _ => .ok 0
  | some x :: xs => .ok (nanArgminFrom xs 1 0 x)

/-- `np.minimum`. -/
def nanMin2 (a b : Option α) : Option α :=
  match a, b with
  | some a, some b => some (min a b)
  | _, _ => none

/-- `np.min` of a non-empty array, as a fold. -/
def nanMin (Y : List (Option α)) : Option α := Y.foldl nanMin2 (Y.headD none)

end

/-- `Y_best`, `x_opt` and `fx_opt` (`bo.py:206-212`). -/
structure NanResults where
  yBest : List (Option ℚ)
  xOpt : Vec
  fxOpt : Option ℚ
  deriving DecidableEq

/-- `_compute_results` (`bo.py:206-212`) with `best_value` (`util/general.py:131-142`). -/
def nanComputeResults (X : Mat) (Y : List (Option ℚ)) : Py NanResults :=
  match nanArgmin Y with
  | .error e => .error e
  | .ok i => match npGet X i with
    | .error e => .error e
    | .ok x => .ok
      { yBest := (List.range Y.length).map fun k => nanMin (Y.take (k + 1))
        xOpt := x, fxOpt := nanMin Y }

/-- A reduction (mean, standard deviation): `nan` if an entry is `nan`. -/
def nanReduce {α β : Type} (f : List α → β) (Y : List (Option α)) : Option β :=
  if Y.all Option.isSome then some (f (Y.filterMap id)) else none

/-- Entrywise operation with a scalar: `nan` if one of them is. -/
def nanScalar {α β γ : Type} (f : α → β → γ) (Y : List (Option α)) (b : Option β) : List (Option γ) :=
  Y.map fun y => match y, b with
    | some y, some b => some (f y b)
    | _, _ => none

/-- `normalize` (`util/general.py:203-234`) of a column with `normalization_type='stats'`: `std > 0` is false for
`nan`. -/
noncomputable def nanNormalize (Y : List (Option ℝ)) : List (Option ℝ) :=
  let Yn := nanScalar (fun y m => y - m) Y (nanReduce meanR Y)
  match nanReduce stdR Y with
  | some s => open Classical in if 0 < s then nanScalar (fun y s => y / s) Yn (some s) else Yn
  | none => Yn

end GPyOpt
