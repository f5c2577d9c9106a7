import Verif.Spec.OneValue
import Verif.Spec.Listing

/-!
# Specification: the numbers of the categories

The values of a categorical variable are numbers without a meaning.  `πs` holds, for every variable, the old
numbers of its categories in the new order (nothing for other variables).
-/

namespace GPyOpt.Spec

/-- The new number of category `v`. Other values stay. -/
def renumber (π : List Nat) (v : ℚ) : ℚ :=
  if v ∈ π.map (fun j : Nat => (j : ℚ)) then (π.idxOf v.num.toNat : ℚ) else v

/-- A row of the objective with new numbers. -/
def renumberRow : List (List Nat) → Vec → Vec
  | π :: πs, v :: x => renumber π v :: renumberRow πs x
  | _, x => x

/-- The model columns of a variable in the new order. -/
def recodeBlock (π : List Nat) (b : Vec) : Vec := if π = [] then b else π.map fun j => b.getD j 0

/-- A model row in the new order. A row of another length is left as it is. -/
def recode (ks : List Kind) (πs : List (List Nat)) (x : Vec) : Vec :=
  if x.length = (ks.map width).sum then (List.zipWith recodeBlock πs (blocksOf ks x)).flatten else x

/-- `π` renumbers the categories of a variable; these are 0, 1, … in any order. -/
def CodedBy : Kind → List Nat → Prop
  | .categorical labels, π => π.Perm (List.range labels.length) ∧
      labels.Perm ((List.range labels.length).map fun j : Nat => (j : ℚ))
  | _, π => π = []

/-- `sp'` has the variables of `sp`; the constraints of `sp'` are those of `sp` for the new numbers. -/
structure Renumbered (πs : List (List Nat)) (sp sp' : Space) : Prop where
  built : ∃ config cs cs', designSpace config cs = .ok sp ∧ designSpace config cs' = .ok sp'
  noBandit : sp.hasBandit = false
  domains : ∀ k ∈ sp.kinds, NonEmptyDom k
  nonempty : sp.kinds ≠ []
  codes : List.Forall₂ CodedBy sp.kinds πs
  constraints : SameAllThrough (renumberRow πs) sp.kinds.length sp.constraints sp'.constraints

/-- The same random numbers, except that a category is drawn with its new number. -/
structure SameCategories (πs : List (List Nat)) (ks : List Kind) (o o' : DesignOracle) : Prop where
  fuel : o'.fuel = o.fuel
  lhs : o'.lhs = o.lhs
  sobol : o'.sobol = o.sobol
  unif : ∀ t, (o'.draws t).unif = (o.draws t).unif
  choice : ∀ (t r i : Nat) (k : Kind) (π : List Nat), ks[i]? = some k → πs[i]? = some π →
    drawn k ((o'.draws t).choice i r) = (drawn k ((o.draws t).choice i r)).map (renumber π)

/-- Among the model columns of every categorical variable one is the greatest. -/
def OneGreatest (ks : List Kind) (x : Vec) : Prop :=
  List.Forall₂ (fun k b => ∀ labels, k = .categorical labels →
    ∃ (i : Nat) (v : ℚ), b[i]? = some v ∧ ∀ (j : Nat) (w : ℚ), b[j]? = some w → j ≠ i → w < v) ks (blocksOf ks x)

end GPyOpt.Spec
