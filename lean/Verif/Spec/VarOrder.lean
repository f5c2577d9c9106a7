import Verif.Spec.Correspond
import Verif.Spec.Space
import Verif.Lemmas.Space

/-!
# Specification: the order of the variables

A user lists the variables of a problem in some order.  Another order is given by a list `σ` of positions:
variable number `i` of the second problem is variable number `σ[i]` of the first.  Constraints and objective of
the second problem read their rows in the new order.
-/

namespace GPyOpt.Spec

/-- The entries of a list, in the order `σ`. A list of another length is left as it is. -/
def arrange {α : Type} (σ : List Nat) (l : List α) : List α :=
  if l.length = σ.length then σ.filterMap fun i => l[i]? else l

/-- The model columns of a row, one block for each variable. -/
def blocksOf : List Kind → Vec → List Vec
  | [], _ => []
  | k :: ks, x => x.take (width k) :: blocksOf ks (x.drop (width k))

/-- A model row with the blocks of its variables in the order `σ`. A row of another length is left as it
is. -/
def arrangeCols (σ : List Nat) (ks : List Kind) (x : Vec) : Vec :=
  if x.length = (ks.map width).sum then (arrange σ (blocksOf ks x)).flatten else x

/-- The same constraint for rows of `n` numbers, reading a row in the order `σ`. -/
def SameExpr (σ : List Nat) (n : Nat) (c c' : ConstrDict) : Prop :=
  match constraintOf c, constraintOf c' with
  | none, none => True
  | some f, some f' => ∀ x : Vec, x.length = n → f' (arrange σ x) = f x
  | _, _ => False

/-- The same constraints, reading rows in the order `σ`. -/
inductive SameExprs (σ : List Nat) (n : Nat) : Option (List ConstrDict) → Option (List ConstrDict) → Prop
  | none : SameExprs σ n none none
  | some {l l' : List ConstrDict} (h : List.Forall₂ (SameExpr σ n) l l') : SameExprs σ n (some l) (some l')

/-- `sp'` is `sp` with its one-dimensional variables in the order `σ`. -/
structure Arranged (σ : List Nat) (sp sp' : Space) : Prop where
  built : ∃ config cs, designSpace config cs = .ok sp
  built' : ∃ config cs, designSpace config cs = .ok sp'
  noBandit : sp.hasBandit = false
  noBandit' : sp'.hasBandit = false
  domains : ∀ k ∈ sp.kinds, NonEmptyDom k
  nonempty : sp.kinds ≠ []
  order : σ.Perm (List.range sp.kinds.length)
  kinds : sp'.kinds = arrange σ sp.kinds
  constraints : SameExprs σ sp.kinds.length sp.constraints sp'.constraints

/-- Number of continuous variables before position `i`. -/
def contBefore (ks : List Kind) (i : Nat) : Nat := ((ks.take i).filter Kind.isContinuous).length

/-- The same random numbers for every variable: the choices of the non-continuous ones, the uniform numbers
and the cells of the Latin hypercube of the continuous ones. -/
structure SameDraws (σ : List Nat) (ks : List Kind) (o o' : DesignOracle) : Prop where
  fuel : o'.fuel = o.fuel
  choice : ∀ t r (i' i : Nat), σ[i']? = some i → (o'.draws t).choice i' r = (o.draws t).choice i r
  unif : ∀ t r (i' i : Nat) lo hi, σ[i']? = some i → ks[i]? = some (.continuous lo hi) →
    (o'.draws t).unif (contBefore (arrange σ ks) i') r = (o.draws t).unif (contBefore ks i) r
  lhs : ∀ r (i' i : Nat) lo hi, σ[i']? = some i → ks[i]? = some (.continuous lo hi) →
    o'.lhs r (contBefore (arrange σ ks) i') = o.lhs r (contBefore ks i)

end GPyOpt.Spec
