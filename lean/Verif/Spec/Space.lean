import Verif.Model.Space

/-!
# Specification: what a design space *means*

Independent of the bookkeeping of `Design_space` (offsets, expanded lists, index tables): a
configuration denotes a list of one-dimensional variables (`Kind`s); a point is given by one
value per variable (objective representation) or one block of columns per variable (model
representation).
-/

namespace GPyOpt.Spec

/-- One-hot vector of length `n` with the one at position `k`. -/
def oneHot (n k : Nat) : Vec := (List.range n).map fun i : Nat => if i = k then 1 else 0

/-- Number of model columns of a variable. -/
def width : Kind → Nat
  | .continuous .. => 1
  | .discrete _ => 1
  | .categorical labels => labels.length
  | .bandit arms => (arms.headD []).length

/-- Admissible values of a variable in the objective representation. -/
def ValidObj : Kind → ℚ → Prop
  | .continuous lo hi, x => lo ≤ x ∧ x ≤ hi
  | .discrete vals, x => x ∈ vals
  | .categorical labels, x => ∃ k < labels.length, x = (k : ℚ)
  | .bandit _, _ => False

/-- Points of the domain in the objective representation (non-bandit spaces). -/
def ObjDomain (ks : List Kind) (row : Vec) : Prop := List.Forall₂ ValidObj ks row

/-- Values that have an encoding: categories must exist, other values are unrestricted. -/
def Encodable : Kind → ℚ → Prop
  | .categorical labels, x => ∃ k < labels.length, x = (k : ℚ)
  | .bandit _, _ => False
  | _, _ => True

/-- Block of model columns that represents a value. -/
def encodeVal : Kind → ℚ → Vec
  | .categorical labels, x => (List.range labels.length).map fun i : Nat => if (i : ℚ) = x then 1 else 0
  | _, x => [x]

/-- Model row that represents an objective row. -/
def encodeRow (ks : List Kind) (row : Vec) : Vec := (List.zipWith encodeVal ks row).flatten

/-- Admissible blocks of model columns of a variable. -/
def ValidBlock : Kind → Vec → Prop
  | .continuous lo hi, b => ∃ x, b = [x] ∧ lo ≤ x ∧ x ≤ hi
  | .discrete vals, b => ∃ x ∈ vals, b = [x]
  | .categorical labels, b => ∃ k < labels.length, b = oneHot labels.length k
  | .bandit arms, b => b ∈ arms

/-- Points of the domain in the model representation. -/
def ModelDomain (ks : List Kind) (row : Vec) : Prop :=
  ∃ blocks, List.Forall₂ ValidBlock ks blocks ∧ row = blocks.flatten

/-- Non-empty domains. -/
def NonEmptyDom : Kind → Prop
  | .continuous lo hi => lo ≤ hi
  | .discrete vals => vals ≠ []
  | .categorical labels => labels ≠ []
  | .bandit arms => arms ≠ []

/-- No bandit variable. -/
def NoBandit (ks : List Kind) : Prop := ∀ k ∈ ks, ∀ arms, k ≠ .bandit arms

/-- `i` is the first position of `l` whose value is best (`best y` is to be minimal). -/
def FirstMin {α : Type} (cost : α → ℚ) (l : List α) (i : Nat) (v : α) : Prop :=
  l[i]? = some v ∧ ∀ (j : Nat) (y : α), l[j]? = some y → cost v ≤ cost y ∧ (j < i → cost v < cost y)

/-- What rounding a block `v` of a variable to its domain must return. -/
def Nearest : Kind → Vec → Vec → Prop
  | .continuous lo hi, v, b => ∃ x r, v = [x] ∧ b = [r] ∧ lo ≤ r ∧ r ≤ hi ∧
      ∀ y, lo ≤ y → y ≤ hi → |r - x| ≤ |y - x|
  | .discrete vals, v, b => ∃ x r i, v = [x] ∧ b = [r] ∧ FirstMin (fun y => |y - x|) vals i r
  | .categorical labels, v, b => ∃ i m, i < labels.length ∧ b = oneHot labels.length i ∧
      FirstMin (fun y => -y) v i m
  | .bandit arms, v, b => ∃ i, FirstMin (fun a => (List.zipWith (fun p q => (p - q) ^ 2) a v).sum) arms i b

/-- Kind denoted by a type name and a domain, if they fit. -/
def kindOfType (type : String) (dom : Dom) : Option Kind :=
  match dom with
  | .flat vals =>
    if type = "continuous" then
      match vals with
      | lo :: hi :: _ => some (.continuous lo hi)
      | _ => none
    else if type = "discrete" then some (.discrete vals)
    else if type = "categorical" then some (.categorical vals)
    else none
  | .rows arms => if type = "bandit" then some (.bandit arms) else none

/-- Kind denoted by a descriptor (the type defaults to continuous), if it is well formed. -/
def kindOf (d : Desc) : Option Kind :=
  d.domain.bind (kindOfType (d.type.getD "continuous"))

/-- Number of one-dimensional variables a descriptor stands for: its `dimensionality`
(default 1); a bandit always stands for one variable. -/
def copies (d : Desc) : Nat :=
  if d.type = some "bandit" then 1 else d.dimensionality.getD 1

/-- The list of one-dimensional variables denoted by a configuration. -/
def kindsOf (config : List Desc) : List Kind :=
  config.flatMap fun d => match kindOf d with
    | some k => List.replicate (copies d) k
    | none => []

/-- The constraint expression of a dictionary: the legacy key wins. -/
def constraintOf (c : ConstrDict) : Option Constr :=
  match c.constrain with
  | some f => some f
  | none => c.constraint

/-- A row satisfies all constraints. -/
def Feasible (cs : List ConstrDict) (row : Vec) : Prop :=
  ∀ c ∈ cs, ∃ f v, constraintOf c = some f ∧ f row = .ok v ∧ v ≤ 0

end GPyOpt.Spec
