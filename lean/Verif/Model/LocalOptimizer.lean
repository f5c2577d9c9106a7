import Verif.Model.Optimizer

/-!
# Model of the local optimizers of `GPyOpt/optimization/optimizer.py` (`OptLbfgs`, `OptDirect`,
`OptCma`) and of the gradients of `OptimizationWithContext`

The numerical routines of the libraries are parameters.
-/

namespace GPyOpt

/-- Intervals of the model columns that an optimizer searches. -/
abbrev Bounds := List (ℚ × ℚ)

/-- `scipy.optimize.fmin_l_bfgs_b`, with exact and with approximated gradients: location, value, and
whether `res[2]['task'] == b'ABNORMAL_TERMINATION_IN_LNSRCH'`. -/
structure Scipy where
  withGrad : (Vec → Py (ℚ × Vec)) → Bounds → Vec → Py (Vec × ℚ × Bool)
  approx : (Vec → Py ℚ) → Bounds → Vec → Py (Vec × ℚ × Bool)

/-- `_f_df` (`optimizer.py:45-47`): the value, and the first row of the gradient. -/
def lbfgsFun (f : Vec → Py ℚ) (fdf : Vec → Py (ℚ × Mat)) (x : Vec) : Py (ℚ × Vec) :=
  match f x with
  | .error e => .error e
  | .ok v => match fdf x with
    | .error e => .error e
    | .ok vg => match npGet vg.2 0 with
      | .error e => .error e
      | .ok g => .ok (v, g)

/-- The result of `OptLbfgs.optimize` (`optimizer.py:54-61`): the start and its value if the line
search failed. -/
def lbfgsResult (f : Vec → Py ℚ) (x0 : Vec) : Py (Vec × ℚ × Bool) → Py (Vec × ℚ)
  | .error e => .error e
  | .ok (x, v, false) => .ok (x, v)
  | .ok (_, _, true) => match f x0 with
    | .error e => .error e
    | .ok v => .ok (x0, v)

/-- `OptLbfgs.optimize` (`optimizer.py:36-61`). With `df` and without `f_df`, line 44 assigns a tuple
whose second entry `df(x)` is evaluated at once, and `x` is not defined. -/
def lbfgsOptimize (s : Scipy) (bounds : Bounds) (f : Vec → Py ℚ) (df : Option (Vec → Py Mat))
    (fdf : Option (Vec → Py (ℚ × Mat))) (x0 : Vec) : Py (Vec × ℚ) :=
  match df, fdf with
  | some _, none => .error .nameError
  | none, none => lbfgsResult f x0 (s.approx f bounds x0)
  | _, some fdf => lbfgsResult f x0 (s.withGrad (lbfgsFun f fdf) bounds x0)

/-- `OptDirect.optimize` (`optimizer.py:74-94`): `solve` gets the function and the box only. -/
def directOptimize (solve : (Vec → Py ℚ) → Bounds → Py Vec) (bounds : Bounds) (f : Vec → Py ℚ)
    (_x0 : Vec) : Py (Vec × ℚ) :=
  match solve f bounds with
  | .error e => .error e
  | .ok x => match f x with
    | .error e => .error e
    | .ok v => .ok (x, v)

/-- `OptCma.optimize` (`optimizer.py:107-130`). -/
def cmaOptimize (fmin : (Vec → Py ℚ) → Vec → Bounds → Py Vec) (bounds : Bounds) (f : Vec → Py ℚ)
    (x0 : Vec) : Py (Vec × ℚ) :=
  if bounds.length = 1 then .error .indexError
  else match fmin f x0 bounds with
    | .error e => .error e
    | .ok x => match f x with
      | .error e => .error e
      | .ok v => .ok (x, v)

/-- `OptimizationWithContext.f_df_nc` (`optimizer.py:226-236`) on one row: the value and the columns
of the free variables of the gradient. -/
def fdfNoContext (ctx : Option Ctx) (sp : Space) (fdf : Vec → Py (ℚ × Mat)) (x : Vec) :
    Py (ℚ × Mat) :=
  match ctx with
  | none => fdf x
  | some c => match c.expandVector sp x with
    | .error e => .error e
    | .ok xx => match fdf xx with
      | .error e => .error e
      | .ok (v, D) => match mapE (fun row => mapE (npGet row) c.noncontextIndex) D with
        | .error e => .error e
        | .ok D' => .ok (v, D')

/-- `OptimizationWithContext.df_nc` (`optimizer.py:215-224`) on one row; without a context `df` itself (`:190`). -/
def dfNoContext (ctx : Option Ctx) (sp : Space) (df : Option (Vec → Py Mat)) (fdf : Vec → Py (ℚ × Mat)) :
    Option (Vec → Py Mat) :=
  match ctx with
  | none => df
  | some c => some fun x => match c.expandVector sp x with
    | .error e => .error e
    | .ok xx => match fdf xx with
      | .error e => .error e
      | .ok (_, D) => mapE (fun row => mapE (npGet row) c.noncontextIndex) D

/-- The local optimizer that `apply_optimizer` uses with the default `'lbfgs'`, `f_df` given, as a
function of the objective on the free variables and the start (`optimizer.py:159`); `g` is
`problem.f_nocontext`. -/
def lbfgsOpt (s : Scipy) (bounds : Bounds) (fdf : Vec → Py (ℚ × Mat)) (g : Vec → Py ℚ) (x0 : Vec) :
    Py Vec :=
  (lbfgsOptimize s bounds g none (some fdf) x0).map Prod.fst

end GPyOpt
