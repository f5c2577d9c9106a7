import Verif.Spec.VarOrderContext

/-!
# Specification: variables with one value

A variable with one value does not have to be listed.  `p` says which variables of the larger problem are
left out, with their values.
-/

namespace GPyOpt.Spec

/-- The domain of the variable has one value. A category has the number 0; the code takes the category of a
design from the list of labels, so the label has to be 0 as well. -/
def OneValue : Kind → ℚ → Prop
  | .continuous lo hi, v => lo = v ∧ hi = v
  | .discrete vals, v => vals ≠ [] ∧ ∀ x ∈ vals, x = v
  | .categorical labels, v => labels = [0] ∧ v = 0
  | .bandit _, _ => False

/-- The same constraint for rows of `n` numbers, read through `O`. -/
def SameThrough (O : Vec → Vec) (n : Nat) (c c' : ConstrDict) : Prop :=
  match constraintOf c, constraintOf c' with
  | none, none => True
  | some f, some f' => ∀ x : Vec, x.length = n → f' (O x) = f x
  | _, _ => False

/-- The same constraints, read through `O`. -/
inductive SameAllThrough (O : Vec → Vec) (n : Nat) : Option (List ConstrDict) → Option (List ConstrDict) → Prop
  | none : SameAllThrough O n none none
  | some {l l' : List ConstrDict} (h : List.Forall₂ (SameThrough O n) l l') : SameAllThrough O n (some l) (some l')

/-- `spF` is `sp` without the variables that `p` gives a value, which have no other one. -/
structure LeftOut (p : List (Option ℚ)) (sp spF : Space) : Prop where
  built : ∃ config cs, designSpace config cs = .ok sp
  built' : ∃ config cs, designSpace config cs = .ok spF
  noBandit : sp.hasBandit = false
  noBandit' : spF.hasBandit = false
  domains : ∀ k ∈ sp.kinds, NonEmptyDom k
  single : List.Forall₂ (fun o k => ∀ v, o = some v → OneValue k v) p sp.kinds
  kinds : spF.kinds = unpinned p sp.kinds
  free : spF.kinds ≠ []
  constraints : SameAllThrough (fill p) spF.kinds.length spF.constraints sp.constraints

/-- The same random numbers for the variables that both problems have: `oF` is the source of the smaller
problem, `o` that of the larger one. -/
structure SameFreeDraws (p : List (Option ℚ)) (ks : List Kind) (oF o : DesignOracle) : Prop where
  fuel : o.fuel = oF.fuel
  choice : ∀ t r (i : Nat), p[i]? = some none → (o.draws t).choice i r = (oF.draws t).choice (freeBefore p i) r
  unif : ∀ t r (i : Nat) lo hi, p[i]? = some none → ks[i]? = some (.continuous lo hi) →
    (o.draws t).unif (contBefore ks i) r = (oF.draws t).unif (contBefore (unpinned p ks) (freeBefore p i)) r
  lhs : ∀ r (i : Nat) lo hi, p[i]? = some none → ks[i]? = some (.continuous lo hi) →
    o.lhs r (contBefore ks i) = oF.lhs r (contBefore (unpinned p ks) (freeBefore p i))
  sobol : ∀ r (i : Nat) lo hi, p[i]? = some none → ks[i]? = some (.continuous lo hi) →
    o.sobol r (contBefore ks i) = oF.sobol r (contBefore (unpinned p ks) (freeBefore p i))

end GPyOpt.Spec
