import Verif.Py

/-!
# Model of `GPyOpt/core/task/variables.py`

The four variable classes are one inductive type `Kind`.  Simplifications:

* continuous domains are pairs of rationals;
* categorical domains are lists of numeric labels (only their length is used by the class,
  `variables.py:196,214`; `RandomDesign` is the only code that reads the labels);
* bandit domains are numpy arrays (the class reads `domain.shape`, `variables.py:141`; a plain
  Python list, as in the class documentation, raises `AttributeError` at this point);
* `dimensionality` is a natural number (`range(d)` is empty for `d < 0`).
-/

namespace GPyOpt

/-- Value of the `'domain'` key of a descriptor: a flat tuple or an array of arms. -/
inductive Dom
  | flat (vals : List ℚ)
  | rows (arms : Mat)
  deriving DecidableEq

/-- A variable descriptor (a Python dict with optional keys), `space.py:20-58`. -/
structure Desc where
  name : Option String := none
  type : Option String := none
  domain : Option Dom := none
  dimensionality : Option Nat := none
  deriving DecidableEq

/-- Class of a variable together with its domain: `ContinuousVariable` (`variables.py:84`),
`DiscreteVariable` (`:162`), `CategoricalVariable` (`:189`), `BanditVariable` (`:119`). -/
inductive Kind
  | continuous (lo hi : ℚ)
  | discrete (vals : List ℚ)
  | categorical (labels : List ℚ)
  | bandit (arms : Mat)
  deriving DecidableEq

/-- `Variable.is_continuous` (`variables.py:13,91`). -/
def Kind.isContinuous : Kind → Bool
  | .continuous .. => true
  | _ => false

/-- `Variable.is_bandit` (`variables.py:94,133,172,216`). -/
def Kind.isBandit : Kind → Bool
  | .bandit _ => true
  | _ => false

/-- `variable.type == 'discrete'`. -/
def Kind.isDiscrete : Kind → Bool
  | .discrete _ => true
  | _ => false

/-- `self.domain.shape[1]` of a bandit: number of columns of the arms. -/
def armDim (arms : Mat) : Nat := (arms.headD []).length

/-- `dimensionality_in_model` set by `expand` (`variables.py:34,141,196`). -/
def Kind.dimInModel : Kind → Nat
  | .continuous .. => 1
  | .discrete _ => 1
  | .categorical labels => labels.length
  | .bandit arms => armDim arms

/-- A variable before expansion (`Variable.__init__`, `variables.py:7-11`). -/
structure Var where
  name : String
  kind : Kind
  dimensionality : Nat
  deriving DecidableEq

/-- A variable after expansion, with the indices set by
`Design_space._compute_variables_indices` (`space.py:132-152`). `idxObj` is the element of the
singleton list `index_in_objective`. -/
structure EVar where
  name : String
  kind : Kind
  idxObj : Nat
  idxModel : List Nat
  deriving DecidableEq

/-- Constructors of the variable classes: `ContinuousVariable.__init__` (`variables.py:85-86`),
`DiscreteVariable.__init__` (`:163-164`), `CategoricalVariable.__init__` (`:190-191`),
`BanditVariable.__init__` (`:120-128`), selected by `create_variable` (`:230-243`).
A domain whose shape does not fit the type is `unmodelled` (in Python it fails later), except
for a bandit with a flat domain (`len` of a number, `TypeError`, `:121`) and with no arms
(`dims[0]`, `IndexError`, `:122`). -/
def createVariable (name type : String) (dom : Dom) (dimensionality : Option Nat) : Py Var :=
  if type = "continuous" then
    match dom with
    | .flat (lo :: hi :: _) => .ok ⟨name, .continuous lo hi, dimensionality.getD 1⟩
    | _ => .error .unmodelled
  else if type = "bandit" then
    match dom with
    | .flat _ => .error .typeError
    | .rows [] => .error .indexError
    | .rows (a :: as) =>
      if as.all (fun b => b.length == a.length) then
        .ok ⟨name, .bandit (a :: as), dimensionality.getD a.length⟩
      else .error .invalidConfig
  else if type = "discrete" then
    match dom with
    | .flat vals => .ok ⟨name, .discrete vals, dimensionality.getD 1⟩
    | .rows _ => .error .unmodelled
  else if type = "categorical" then
    match dom with
    | .flat labels => .ok ⟨name, .categorical labels, dimensionality.getD 1⟩
    | .rows _ => .error .unmodelled
  else .error .invalidConfig

/-- `Variable.expand` (`variables.py:16-36`), `CategoricalVariable.expand` (`:193-197`),
`BanditVariable.expand` (`:139-143`: a single variable, the name is kept). Indices are set
later. -/
def Var.expand (v : Var) : List EVar :=
  match v.kind with
  | .bandit arms => [⟨v.name, .bandit arms, 0, []⟩]
  | k => (List.range v.dimensionality).map fun i =>
      ⟨if v.dimensionality > 1 then v.name ++ "_" ++ toString (i + 1) else v.name, k, 0, []⟩

/-- `Variable.objective_to_model` (`variables.py:38-43`) and
`CategoricalVariable.objective_to_model` (`:199-202`). For a bandit the method returns the
value itself (`:130-131`); the value here is a Python number given in a context, and the caller's `list += number`
(`acquisition_optimizer.py:105-107`) is a `TypeError`. For the numpy numbers of `Design_space.objective_to_model` see
`Space.objectiveToModel`. -/
def Kind.objectiveToModel (k : Kind) (x : ℚ) : Py Vec :=
  match k with
  | .continuous .. => .ok [x]
  | .discrete _ => .ok [x]
  | .categorical labels =>
    match pyIndex labels.length (pyInt x) with
    | some i => .ok ((List.replicate labels.length (0 : ℚ)).set i 1)
    | none => .error .indexError
  | .bandit _ => .error .typeError

/-- `sum(x * y for x, y in zip(range(vardim), original_entry))` (`variables.py:207`), started
at category number `i`. -/
def dotRange : Nat → Vec → ℚ
  | _, [] => 0
  | i, y :: ys => (i : ℚ) * y + dotRange (i + 1) ys

/-- `Variable.model_to_objective` (`variables.py:45-50`) and
`CategoricalVariable.model_to_objective` (`:204-208`). The bandit method takes no index
(`:136`), so the call in `space.py:246` is a `TypeError`. -/
def Kind.modelToObjective (k : Kind) (x : Vec) (idx : Nat) : Py ℚ :=
  match k with
  | .continuous .. => npGet x idx
  | .discrete _ => npGet x idx
  | .categorical labels => .ok (dotRange 0 (slice x idx labels.length))
  | .bandit _ => .error .typeError

/-- Python `min` of a sequence (first minimal element). -/
def pyMin : List ℚ → Py ℚ
  | [] => .error .valueError
  | x :: xs => .ok (xs.foldl (fun m y => if y < m then y else m) x)

/-- Python `max` of a sequence. -/
def pyMax : List ℚ → Py ℚ
  | [] => .error .valueError
  | x :: xs => .ok (xs.foldl (fun m y => if m < y then y else m) x)

/-- Column `d` of a matrix (`domain[:,d]`). -/
def column (m : Mat) (d : Nat) : Vec := m.map (fun r => r.getD d 0)

/-- `get_bounds` of an expanded variable: continuous (`variables.py:88-89`, dimensionality 1
after expansion), discrete (`:166-167`), categorical (`:210-211`), bandit (`:145-146`). -/
def Kind.getBounds (k : Kind) : Py (List (ℚ × ℚ)) :=
  match k with
  | .continuous lo hi => .ok [(lo, hi)]
  | .discrete vals => match pyMin vals, pyMax vals with
    | .ok a, .ok b => .ok [(a, b)]
    | .error e, _ => .error e
    | _, .error e => .error e
  | .categorical labels => .ok (List.replicate labels.length (0, 1))
  | .bandit arms => mapE (fun d => match pyMin (column arms d), pyMax (column arms d) with
    | .ok a, .ok b => .ok (a, b)
    | .error e, _ => .error e
    | _, .error e => .error e) (List.range (armDim arms))

/-- What `Variable.round` returns: a flat list of numbers, or (bandit) a list holding one arm. -/
inductive Piece
  | flat (v : Vec)
  | rows (m : Mat)
  deriving DecidableEq

/-- `ContinuousVariable.round` (`variables.py:100-116`). -/
def roundContinuous (lo hi : ℚ) (v : Vec) : Py Vec :=
  match npGet v 0 with
  | .error e => .error e
  | .ok x => .ok [if x < lo then lo else if hi < x then hi else x]

/-- The loop of `DiscreteVariable.round` (`variables.py:183-185`). -/
def roundDiscreteLoop (value : ℚ) : List ℚ → ℚ → ℚ
  | [], r => r
  | d :: ds, r => roundDiscreteLoop value ds (if |d - value| < |r - value| then d else r)

/-- `DiscreteVariable.round` (`variables.py:175-187`). -/
def roundDiscrete (vals : List ℚ) (v : Vec) : Py Vec :=
  match npGet v 0 with
  | .error e => .error e
  | .ok x => match npGet vals 0 with
    | .error e => .error e
    | .ok r0 => .ok [roundDiscreteLoop x vals r0]

/-- `CategoricalVariable.round` (`variables.py:219-227`). -/
def roundCategorical (v : Vec) : Py Vec :=
  match argmax v with
  | .error e => .error e
  | .ok i => .ok ((List.replicate v.length (0 : ℚ)).set i 1)

/-- Squared Euclidean norm of `a - b`. -/
def sqDist : Vec → Vec → ℚ
  | a :: as, b :: bs => (a - b) * (a - b) + sqDist as bs
  | _, _ => 0

/-- `BanditVariable.round` (`variables.py:151-159`). The argmin of the norms is computed on the
squared norms (same order, same ties). A value of another width is a broadcasting
`ValueError` (the width-one broadcast is not modelled). -/
def roundBandit (arms : Mat) (v : Vec) : Py Mat :=
  if v.length = armDim arms then
    match argmin (arms.map (fun a => sqDist a v)) with
    | .error e => .error e
    | .ok i => match npGet arms i with
      | .error e => .error e
      | .ok a => .ok [a]
  else .error .valueError

/-- `variable.round(var_value)` as dispatched by `Design_space.round_optimum`. -/
def Kind.round (k : Kind) (v : Vec) : Py Piece :=
  match k with
  | .continuous lo hi => (roundContinuous lo hi v).map .flat
  | .discrete vals => (roundDiscrete vals v).map .flat
  | .categorical _ => (roundCategorical v).map .flat
  | .bandit arms => (roundBandit arms v).map .rows

end GPyOpt
