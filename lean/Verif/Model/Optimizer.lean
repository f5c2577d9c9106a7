import Verif.Model.Anchor

/-!
# Model of `GPyOpt/optimization/optimizer.py` (`apply_optimizer`, `OptimizationWithContext`,
`choose_optimizer`) and of `AcquisitionOptimizer.optimize`

The numerical optimizers (scipy L-BFGS, DIRECT, CMA) are a parameter: a function from a starting
point to a returned location, which may raise.
-/

namespace GPyOpt

/-- `problem.x0_nocontext` (`optimizer.py:188,194`). -/
def x0NoContext (ctx : Option Ctx) (x0 : Vec) : Py Vec :=
  match ctx with
  | none => .ok x0
  | some c => mapE (npGet x0) c.noncontextIndex

/-- `OptimizationWithContext.f_nc` (`optimizer.py:203-213`) on one row: the function given to the
local optimizer. -/
def fNoContext (ctx : Option Ctx) (sp : Space) (f : Vec → Py ℚ) (x : Vec) : Py ℚ :=
  match ctx with
  | none => f x
  | some c => match c.expandVector sp x with
    | .error e => .error e
    | .ok xx => f xx

/-- `apply_optimizer` (`optimizer.py:133-171`): `opt` receives the objective restricted to the free
variables and the starting point. The rounded optimum must be a single row (it is not for several
bandit variables, see C06). -/
def applyOptimizer (sp : Space) (ctx : Option Ctx) (dup : Option DupMgr)
    (opt : (Vec → Py ℚ) → Vec → Py Vec) (f : Vec → Py ℚ) (x0 : Vec) : Py (Vec × ℚ) :=
  match x0NoContext ctx x0 with
  | .error e => .error e
  | .ok xs => match isDup dup sp x0 with
    | .error e => .error e
    | .ok true => .error .valueError
    | .ok false => match opt (fNoContext ctx sp f) xs with
      | .error e => .error e
      | .ok y => match addContext ctx sp y with
        | .error e => .error e
        | .ok yc => match sp.roundOptimum2d [yc] with
          | .error e => .error e
          | .ok [r] => match isDup dup sp r with
            | .error e => .error e
            | .ok true => match f x0 with
              | .error e => .error e
              | .ok v => .ok (x0, v)
            | .ok false => match f r with
              | .error e => .error e
              | .ok v => .ok (r, v)
          | .ok _ => .error .unmodelled

/-- `choose_optimizer` (`optimizer.py:238-253`): only the check of the name. -/
def chooseOptimizer (name : String) : Py Unit :=
  if name = "lbfgs" ∨ name = "DIRECT" ∨ name = "CMA" then .ok () else .error .invalidVariableName

/-- External inputs of one optimization of the acquisition: random design, `np.argsort`, the
scores drawn by Thompson sampling, and the local optimizer (`opt k` is its `k`-th call). -/
structure AcqOracle where
  design : DesignOracle
  argsort : List ℚ → List Nat
  thompson : Mat → Py (List ℚ)
  opt : Nat → (Vec → Py ℚ) → Vec → Py Vec

/-- Options of an `AcquisitionOptimizer` (`acquisition_optimizer.py:27-44`). -/
structure AcqOptions where
  optimizerName : String := "lbfgs"
  anchorLogic : String := "max_objective"
  numSamplesObjective : Nat := 1000
  numSamplesThompson : Nat := 25000
  numAnchor : Nat := 5

/-- Anchor points of `AcquisitionOptimizer.optimize` (`acquisition_optimizer.py:64-70`); with an
unknown logic the generator is an unbound local variable. -/
def acqAnchors (sp : Space) (ctx : Ctx) (dup : Option DupMgr) (op : AcqOptions) (o : AcqOracle)
    (f : Vec → Py ℚ) : Py Mat :=
  if op.anchorLogic = "max_objective" then
    anchorPoints sp (some ctx) dup false "random" op.numSamplesObjective op.numAnchor o.design
      (objectiveScores f) o.argsort
  else if op.anchorLogic = "thompson_sampling" then
    anchorPoints sp (some ctx) dup false "sobol" op.numSamplesThompson op.numAnchor o.design
      o.thompson o.argsort
  else .error .unboundLocal

/-- `[apply_optimizer(..., a, ...) for a in anchor_points]` (`acquisition_optimizer.py:73`). -/
def optimizedPoints (sp : Space) (ctx : Option Ctx) (dup : Option DupMgr)
    (opt : Nat → (Vec → Py ℚ) → Vec → Py Vec) (f : Vec → Py ℚ) (anchors : Mat) :
    Py (List (Vec × ℚ)) :=
  mapE (fun ka : Vec × Nat => applyOptimizer sp ctx dup (opt ka.2) f ka.1) anchors.zipIdx

/-- `AcquisitionOptimizer.optimize` (`acquisition_optimizer.py:47-78`). -/
def acqOptimize (sp : Space) (ctx : Ctx) (dup : Option DupMgr) (op : AcqOptions) (o : AcqOracle)
    (f : Vec → Py ℚ) : Py (Vec × ℚ) :=
  match chooseOptimizer op.optimizerName with
  | .error e => .error e
  | .ok _ => match acqAnchors sp ctx dup op o f with
    | .error e => .error e
    | .ok anchors => match optimizedPoints sp (some ctx) dup o.opt f anchors with
      | .error e => .error e
      | .ok pts => match argmin (pts.map Prod.snd) with
        | .error e => .error e
        | .ok i => npGet pts i

end GPyOpt
