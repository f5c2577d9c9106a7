import Verif.Model.Variables

/-!
# Model of `GPyOpt/core/task/space.py`

`designSpace` is `Design_space.__init__`.  A constraint (a Python expression string compiled
with `exec`, `space.py:305`) is a function of one model row, which may raise; vectorised
evaluation is applied row by row.
-/

namespace GPyOpt

/-- A constraint expression, as a function of a (model) row. -/
abbrev Constr := Vec → Py ℚ

/-- A constraint dictionary: key `'constraint'` and the legacy key `'constrain'`
(`space.py:81-86`). -/
structure ConstrDict where
  constraint : Option Constr := none
  constrain : Option Constr := none

/-- Attributes of a `Design_space` object. -/
structure Space where
  config : List Desc
  vars : List Var
  configExpanded : List Desc
  expanded : List EVar
  constraints : Option (List ConstrDict)

/-- Loop of `_translate_space` (`space.py:177-186`); `i` is the position of the descriptor. -/
def translateFrom : Nat → List Desc → Py (List Var)
  | _, [] => .ok []
  | i, d :: ds =>
    let name := d.name.getD ("var_" ++ toString i)
    let type := d.type.getD "continuous"
    match d.domain with
    | none => .error .invalidConfig
    | some dom => match createVariable name type dom d.dimensionality with
      | .error e => .error e
      | .ok v => match translateFrom (i + 1) ds with
        | .error e => .error e
        | .ok vs => .ok (v :: vs)

/-- `_translate_space` (`space.py:169-190`), with the final check on mixed bandits. -/
def translateSpace (config : List Desc) : Py (List Var) :=
  match translateFrom 0 config with
  | .error e => .error e
  | .ok vs =>
    if vs.any (fun v => v.kind.isBandit) && vs.any (fun v => !v.kind.isBandit) then
      .error .invalidConfig
    else .ok vs

/-- One iteration of `_expand_config_space` (`space.py:118-130`); reading the missing key
`'name'` (`:126`) is a `KeyError`. -/
def expandDesc (d : Desc) : Py (List Desc) :=
  match d.dimensionality with
  | none => .ok [d]
  | some 0 => .ok []
  | some (n + 1) => match d.name with
    | none => .error .keyError
    | some s => .ok ((List.range (n + 1)).map fun k =>
        { d with name := some (s ++ "_" ++ toString (k + 1)), dimensionality := some 1 })

/-- `_expand_config_space` (`space.py:100-130`). -/
def expandConfig (config : List Desc) : Py (List Desc) :=
  (mapE expandDesc config).map List.flatten

/-- Number of model columns counted by `_compute_variables_indices` (`space.py:146-152`): one,
except for categorical variables — in particular one for a bandit of any width. -/
def Kind.indexWidth : Kind → Nat
  | .categorical labels => labels.length
  | _ => 1

/-- `_compute_variables_indices` (`space.py:132-152`). -/
def computeIndices : (obj model : Nat) → List EVar → List EVar
  | _, _, [] => []
  | o, m, v :: vs =>
    { v with idxObj := o, idxModel := (List.range v.kind.indexWidth).map (m + ·) }
      :: computeIndices (o + 1) (m + v.kind.indexWidth) vs

/-- The legacy-key fix of `Design_space.__init__` (`space.py:83-86`). -/
def fixConstr (c : ConstrDict) : ConstrDict :=
  match c.constrain with
  | some f => { c with constraint := some f }
  | none => c

/-- `Design_space.__init__` (`space.py:64-87`). `store_noncontinuous` is unused by the class. -/
def designSpace (config : List Desc) (constraints : Option (List ConstrDict)) : Py Space :=
  match translateSpace config with
  | .error e => .error e
  | .ok vars => match expandConfig config with
    | .error e => .error e
    | .ok configX => .ok
        { config := config
          vars := vars
          configExpanded := configX
          expanded := computeIndices 0 0 (vars.flatMap Var.expand)
          constraints := constraints.map (List.map fixConstr) }

namespace Space

/-- `self.dimensionality` (`space.py:174,185`). -/
def dimensionality (sp : Space) : Nat := (sp.vars.map Var.dimensionality).sum

/-- `self.objective_dimensionality` (`space.py:77`). -/
def objectiveDim (sp : Space) : Nat := sp.expanded.length

/-- `self.model_dimensionality` (`space.py:78-79`). -/
def modelDim (sp : Space) : Nat := (sp.expanded.map (fun v => v.kind.dimInModel)).sum

/-- `_has_bandit` (`space.py:279-280`). -/
def hasBandit (sp : Space) : Bool := sp.vars.any (fun v => v.kind.isBandit)

/-- `has_continuous` (`space.py:273-277`). -/
def hasContinuous (sp : Space) : Bool := sp.vars.any (fun v => v.kind.isContinuous)

/-- `has_constraints` (`space.py:252-259`). -/
def hasConstraints (sp : Space) : Bool := sp.constraints.isSome

/-- `find_variable` (`space.py:155-159`) on the dictionary of `_create_variables_dic`
(`:161-167`): a later variable with the same name overwrites an earlier one. -/
def findVariable (sp : Space) (name : String) : Py EVar :=
  match sp.expanded.reverse.find? (fun v => v.name == name) with
  | some v => .ok v
  | none => .error .invalidVariableName

end Space

/-- Loop of `objective_to_model` (`space.py:206-217`), `k` being the objective column. -/
def objectiveToModelFrom (x : Vec) : Nat → List EVar → Py Vec
  | _, [] => .ok []
  | k, v :: vs => match npGet x k with
    | .error e => .error e
    | .ok xk => match v.kind.objectiveToModel xk with
      | .error e => .error e
      | .ok entry => match objectiveToModelFrom x (k + 1) vs with
        | .error e => .error e
        | .ok rest => .ok (entry ++ rest)

/-- Loop of `model_to_objective` (`space.py:237-250`), `idx` being `idx_model`. -/
def modelToObjectiveFrom (x : Vec) : Nat → List EVar → Py Vec
  | _, [] => .ok []
  | idx, v :: vs => match v.kind.modelToObjective x idx with
    | .error e => .error e
    | .ok entry => match modelToObjectiveFrom x (idx + v.kind.dimInModel) vs with
      | .error e => .error e
      | .ok rest => .ok (entry :: rest)

/-- `np.atleast_2d` of a list of rows: the empty list becomes the 1×0 array. -/
def atleast2d (m : Mat) : Mat := match m with
  | [] => [[]]
  | m => m

namespace Space

/-- `objective_to_model` (`space.py:206-217`). A bandit variable returns the entry itself (`variables.py:130-131`), which is a
numpy number here, and `x_model += number` with a list on the left is numpy's addition: `x_model` becomes an empty array and
stays one. So on a bandit space the result is empty, after every column was looked up. (Bandit variables are never combined
with others, `space.py:188-190`.) -/
def objectiveToModel (sp : Space) (x : Vec) : Py Vec :=
  if sp.hasBandit then (if sp.objectiveDim ≤ x.length then .ok [] else .error .indexError)
  else objectiveToModelFrom x 0 sp.expanded

theorem objectiveToModel_of (sp : Space) (h : sp.hasBandit = false) (x : Vec) :
    sp.objectiveToModel x = objectiveToModelFrom x 0 sp.expanded := by
  simp [objectiveToModel, h]

/-- `model_to_objective` (`space.py:237-250`). -/
def modelToObjective (sp : Space) (x : Vec) : Py Vec := modelToObjectiveFrom x 0 sp.expanded

/-- `unzip_inputs` (`space.py:219-226`). -/
def unzipInputs (sp : Space) (X : Mat) : Py Mat :=
  if sp.hasBandit then .ok X else (mapE sp.objectiveToModel X).map atleast2d

/-- `zip_inputs` (`space.py:228-235`). -/
def zipInputs (sp : Space) (X : Mat) : Py Mat :=
  if sp.hasBandit then .ok X else (mapE sp.modelToObjective X).map atleast2d

/-- `get_bounds` (`space.py:262-271`). -/
def getBounds (sp : Space) : Py (List (ℚ × ℚ)) :=
  (mapE (fun v : EVar => v.kind.getBounds) sp.expanded).map List.flatten

end Space

/-- Loop of `get_subspace` (`space.py:287-293`). -/
def getSubspaceFrom (dims : List Nat) : Nat → List EVar → List EVar
  | _, [] => []
  | k, v :: vs =>
    let rest := getSubspaceFrom dims (k + v.kind.dimInModel) vs
    if k ∈ dims then v :: rest else rest

/-- `get_subspace` (`space.py:282-293`). -/
def Space.getSubspace (sp : Space) (dims : List Nat) : List EVar := getSubspaceFrom dims 0 sp.expanded

/-- One constraint of the loop of `indicator_constraints` (`space.py:303-307`): multiplies the
running weights by the 0/1 indicator of every row. A missing key `'constraint'` is a
`KeyError`. -/
def applyConstr (c : ConstrDict) (x : Mat) (w : List ℚ) : Py (List ℚ) :=
  match c.constraint with
  | none => .error .keyError
  | some f => match mapE f x with
    | .error e => .error e
    | .ok vals => .ok (List.zipWith (fun a v => a * (if v ≤ 0 then 1 else 0)) w vals)

/-- Loop of `indicator_constraints` over the constraints. -/
def applyConstrs : List ConstrDict → Mat → List ℚ → Py (List ℚ)
  | [], _, w => .ok w
  | c :: cs, x, w => match applyConstr c x w with
    | .error e => .error e
    | .ok w' => applyConstrs cs x w'

/-- `indicator_constraints` (`space.py:296-311`): column of weights, one per row. -/
def Space.indicatorConstraints (sp : Space) (x : Mat) : Py (List ℚ) :=
  match sp.constraints with
  | none => .ok (x.map fun _ => 1)
  | some cs => applyConstrs cs x (x.map fun _ => 1)

/-- `np.concatenate` of flat pieces only. -/
def concatFlat : List Piece → Option Vec
  | [] => some []
  | .flat v :: ps => (concatFlat ps).map (v ++ ·)
  | .rows _ :: _ => none

/-- `np.concatenate` (axis 0) of row pieces only: rows are stacked and must have one width. -/
def concatRows (w : Nat) : List Piece → Option Mat
  | [] => some []
  | .rows m :: ps => if m.all (fun r => r.length == w) then (concatRows w ps).map (m ++ ·) else none
  | .flat _ :: _ => none

/-- Width of the first row piece. -/
def pieceWidth : List Piece → Nat
  | .rows (r :: _) :: _ => r.length
  | _ => 0

/-- `np.atleast_2d(np.concatenate(pieces))` (`space.py:342`): flat pieces give one row, row
pieces are stacked, anything else (also no piece at all) is a `ValueError`. -/
def concatPieces (ps : List Piece) : Py Mat :=
  match ps with
  | [] => .error .valueError
  | .flat _ :: _ => match concatFlat ps with
    | some v => .ok [v]
    | none => .error .valueError
  | .rows _ :: _ => match concatRows (pieceWidth ps) ps with
    | some m => .ok m
    | none => .error .valueError

/-- Loop of `round_optimum` (`space.py:333-340`). -/
def roundPieces (x : Vec) : Nat → List EVar → Py (List Piece)
  | _, [] => .ok []
  | idx, v :: vs => match v.kind.round (slice x idx v.kind.dimInModel) with
    | .error e => .error e
    | .ok p => match roundPieces x (idx + v.kind.dimInModel) vs with
      | .error e => .error e
      | .ok ps => .ok (p :: ps)

/-- `round_optimum` on a vector or a single-row array (`space.py:321-342`). -/
def Space.roundOptimum (sp : Space) (x : Vec) : Py Mat :=
  match roundPieces x 0 sp.expanded with
  | .error e => .error e
  | .ok ps => concatPieces ps

/-- `round_optimum` on a two-dimensional array (`space.py:327-331`): only one row is allowed. -/
def Space.roundOptimum2d (sp : Space) (x : Mat) : Py Mat :=
  match x with
  | [r] => sp.roundOptimum r
  | _ => .error .valueError

namespace Space

/-- `get_continuous_bounds` (`space.py:352-360`). -/
def getContinuousBounds (sp : Space) : List (ℚ × ℚ) :=
  sp.vars.flatMap fun v => match v.kind with
    | .continuous lo hi => List.replicate v.dimensionality (lo, hi)
    | _ => []

/-- Positions `i` of `range(dimensionality)` whose expanded variable satisfies `p`; reading
`space_expanded[i]` past the end is an `IndexError`. -/
def dimsWhere (p : Kind → Bool) (ex : List EVar) : List Nat → Py (List Nat)
  | [] => .ok []
  | i :: is => match npGet ex i with
    | .error e => .error e
    | .ok v => match dimsWhere p ex is with
      | .error e => .error e
      | .ok r => .ok (if p v.kind then i :: r else r)

/-- `get_continuous_dims` (`space.py:363-371`). -/
def getContinuousDims (sp : Space) : Py (List Nat) :=
  dimsWhere Kind.isContinuous sp.expanded (List.range sp.dimensionality)

/-- `get_discrete_dims` (`space.py:398-406`). -/
def getDiscreteDims (sp : Space) : Py (List Nat) :=
  dimsWhere Kind.isDiscrete sp.expanded (List.range sp.dimensionality)

/-- `input_dim` (`space.py:313-319`). -/
def inputDim (sp : Space) : Py Nat :=
  match sp.getContinuousDims with
  | .error e => .error e
  | .ok c => match sp.getDiscreteDims with
    | .error e => .error e
    | .ok d => .ok (c.length + d.length)

/-- `get_bandit` (`space.py:421-429`): the arms of all bandit variables. -/
def getBandit (sp : Space) : Mat :=
  sp.vars.flatMap fun v => match v.kind with
    | .bandit arms => arms
    | _ => []

end Space

/-- `itertools.product(*sets)` (`space.py:395`), last factor varying fastest. -/
def cartesian : List (List ℚ) → Mat
  | [] => [[]]
  | s :: ss => s.flatMap fun a => (cartesian ss).map (a :: ·)

/-- `get_discrete_grid` (`space.py:386-395`). -/
def Space.getDiscreteGrid (sp : Space) : Mat :=
  cartesian (sp.vars.flatMap fun v => match v.kind with
    | .discrete vals => List.replicate v.dimensionality vals
    | _ => [])

/-- `bounds_to_space` (`space.py:438-447`); `k` is the position. -/
def boundsToSpaceFrom : Nat → List (ℚ × ℚ) → List Desc
  | _, [] => []
  | k, b :: bs =>
    { name := some ("var_" ++ toString (k + 1)), type := some "continuous",
      domain := some (.flat [b.1, b.2]), dimensionality := some 1 } :: boundsToSpaceFrom (k + 1) bs

/-- `bounds_to_space` (`space.py:438-447`). -/
def boundsToSpace (bounds : List (ℚ × ℚ)) : List Desc := boundsToSpaceFrom 0 bounds

end GPyOpt
