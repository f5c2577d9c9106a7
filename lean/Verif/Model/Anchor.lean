import Verif.Model.Context
import Verif.Model.Duplicate
import Mathlib.Data.List.Lex
import Mathlib.Data.List.Dedup
import Mathlib.Data.List.Sort

/-!
# Model of `GPyOpt/optimization/anchor_points_generator.py`

`np.argsort` is a parameter (its order of equal scores is unspecified); so are the random designs
and the scores of Thompson sampling.
-/

namespace GPyOpt

/-- `sorted(list({tuple(x) for x in X}))` (`anchor_points_generator.py:40`): the distinct rows in
lexicographic order. -/
def sortedUnique (X : Mat) : Mat := X.dedup.insertionSort (· ≤ ·)

/-- The space that is sampled (`anchor_points_generator.py:28-34`): without the context variables
— but with the constraints of the full space — unless there is a bandit variable. The second
component is the context manager used by `add_context`. -/
def anchorSpace (sp : Space) (ctx : Option Ctx) : Py (Space × Option Ctx) :=
  match ctx with
  | none => .ok (sp, none)
  | some c =>
    if sp.hasBandit then .ok (sp, none)
    else match mapE (npGet sp.configExpanded) c.nocontextIndexObj with
      | .error e => .error e
      | .ok ds => match designSpace ds sp.constraints with
        | .error e => .error e
        | .ok sp' => .ok (sp', some c)

/-- The sampled model rows, context included (`anchor_points_generator.py:37-46`); `np.vstack([])`
is a `ValueError`. -/
def anchorSamples (sp : Space) (ctx : Option Ctx) (unique : Bool) (designType : String)
    (numSamples : Nat) (o : DesignOracle) : Py Mat :=
  match anchorSpace sp ctx with
  | .error e => .error e
  | .ok (sp', ctx') => match initialDesign designType sp' o numSamples with
    | .error e => .error e
    | .ok X =>
      let X1 : Py Mat :=
        if unique then (if X = [] then .error .valueError else sp'.unzipInputs (sortedUnique X))
        else sp'.unzipInputs X
      match X1 with
      | .error e => .error e
      | .ok X => mapE (addContext ctx' sp) X

/-- Positions of the rows that are not flagged (`anchor_points_generator.py:54`). -/
def nonDuplicates (X : Mat) (flags : List Bool) : Mat :=
  (X.zip flags).filterMap fun p => if p.2 then none else some p.1

/-- `AnchorPointsGenerator.get` (`anchor_points_generator.py:25-69`); `score` is
`get_anchor_point_scores`, `argsort` is `np.argsort`. -/
def anchorPoints (sp : Space) (ctx : Option Ctx) (dup : Option DupMgr) (unique : Bool)
    (designType : String) (numSamples numAnchor : Nat) (o : DesignOracle)
    (score : Mat → Py (List ℚ)) (argsort : List ℚ → List Nat) : Py Mat :=
  match anchorSamples sp ctx unique designType numSamples o with
  | .error e => .error e
  | .ok X => match mapE (isDup dup sp) X with
    | .error e => .error e
    | .ok flags =>
      let X' := nonDuplicates X flags
      if X' = [] then .error .fullyExplored
      else match score X' with
        | .error e => .error e
        | .ok scores => mapE (npGet X') ((argsort scores).take (min scores.length numAnchor))

/-- `ObjectiveAnchorPointsGenerator.get_anchor_point_scores` (`anchor_points_generator.py:102-104`). -/
def objectiveScores (f : Vec → Py ℚ) (X : Mat) : Py (List ℚ) := mapE f X

/-- `RandomAnchorPointsGenerator.get_anchor_point_scores` (`anchor_points_generator.py:116-118`). -/
def randomScores (X : Mat) : Py (List ℚ) := .ok ((List.range X.length).map fun i : Nat => (i : ℚ))

end GPyOpt
