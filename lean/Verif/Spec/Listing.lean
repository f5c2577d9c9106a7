import Verif.Spec.Correspond
import Verif.Spec.Space
import Verif.Lemmas.Space

/-!
# Specification: the values of a variable as a set

A user lists the values of a discrete variable and the categories of a categorical one.  Two descriptions list the same values:
in another order, for a discrete variable also with repetitions (the number of categories is the number of entries).
-/

namespace GPyOpt.Spec

/-- Two variables with the same values. -/
inductive SameKind : Kind → Kind → Prop
  | refl (k : Kind) : SameKind k k
  | discrete {l l' : List ℚ} (h : ∀ x, x ∈ l' ↔ x ∈ l) : SameKind (.discrete l) (.discrete l')
  | categorical {l l' : List ℚ} (h : l'.Perm l) : SameKind (.categorical l) (.categorical l')

/-- Two domains, of a variable of the given type, with the same values. -/
inductive SameDom : String → Option Dom → Option Dom → Prop
  | refl (t : String) (d : Option Dom) : SameDom t d d
  | discrete {l l' : List ℚ} (h : ∀ x, x ∈ l' ↔ x ∈ l) : SameDom "discrete" (some (.flat l)) (some (.flat l'))
  | categorical {l l' : List ℚ} (h : l'.Perm l) : SameDom "categorical" (some (.flat l)) (some (.flat l'))

/-- Two descriptions of a variable with the same values. -/
structure SameDesc (d d' : Desc) : Prop where
  name : d'.name = d.name
  type : d'.type = d.type
  dimensionality : d'.dimensionality = d.dimensionality
  domain : SameDom (d.type.getD "continuous") d.domain d'.domain

/-- The value that is drawn for a variable that is not continuous: entry `i` of the list, counted modulo its length. -/
def drawn : Kind → Nat → Option ℚ
  | .discrete l, i => l[i % l.length]?
  | .categorical l, i => l[i % l.length]?
  | _, _ => none

/-- Random numbers that draw the same values for variables with the domains `ks` and `ks'`. -/
structure SameValues (ks ks' : List Kind) (o o' : DesignOracle) : Prop where
  fuel : o'.fuel = o.fuel
  lhs : o'.lhs = o.lhs
  sobol : o'.sobol = o.sobol
  junk : ∀ t, (o'.draws t).junk = (o.draws t).junk
  unif : ∀ t, (o'.draws t).unif = (o.draws t).unif
  choice : ∀ (t r i : Nat) (k k' : Kind), ks[i]? = some k → ks'[i]? = some k' →
    drawn k' ((o'.draws t).choice i r) = drawn k ((o.draws t).choice i r)

/-- No discrete variable has two nearest values: a model row, block by block. -/
def NoTie : List Kind → Vec → Prop
  | [], _ => True
  | .discrete l :: ks, x => (∀ a ∈ l, ∀ b ∈ l, (∀ c ∈ l, |a - x.headD 0| ≤ |c - x.headD 0|) →
      |b - x.headD 0| = |a - x.headD 0| → b = a) ∧ NoTie ks (x.drop 1)
  | k :: ks, x => NoTie ks (x.drop (width k))

/-- The domains of the variables that are free of the context. -/
def freeKinds (sp : Space) (c : Ctx) : List Kind := c.nocontextIndexObj.filterMap fun i => sp.kinds[i]?

end GPyOpt.Spec
