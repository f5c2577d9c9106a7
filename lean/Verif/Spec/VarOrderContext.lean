import Verif.Spec.VarOrder
import Verif.Spec.Smaller

/-!
# Specification: the order of the variables, in a context

A context fixes some of the variables by name.  An order of all variables gives an order of those that are
free.
-/

namespace GPyOpt.Spec

/-- Number of free variables before position `i`. -/
def freeBefore (p : List (Option ℚ)) (i : Nat) : Nat := ((p.take i).filter Option.isNone).length

/-- The order of the free variables among themselves when all variables are in the order `σ`. -/
def freeOrder (σ : List Nat) (p : List (Option ℚ)) : List Nat :=
  σ.filterMap fun i => if p[i]? = some none then some (freeBefore p i) else none

/-- `sp'` is `sp` with its variables in the order `σ`, with their names; the context leaves the smaller
problems `spF` and `spF'`. The code applies the constraints to the free variables alone, so these have to be
the same when read in the order of the free variables. -/
structure ArrangedIn (σ : List Nat) (context : Context) (sp sp' spF spF' : Space) : Prop where
  all : Arranged σ sp sp'
  names : sp'.expanded.map EVar.name = arrange σ (sp.expanded.map EVar.name)
  small : Smaller sp context spF
  small' : Smaller sp' context spF'
  constraints : SameExprs (freeOrder σ (pinned sp context)) spF.kinds.length sp.constraints sp'.constraints

end GPyOpt.Spec
