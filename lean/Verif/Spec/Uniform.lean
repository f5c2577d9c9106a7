import Verif.Spec.Design
import Mathlib.Data.Fintype.Pi

/-!
# Specification: the outcomes of a uniform random number generator

A generator has `M` numbers `0, 1/M, …, (M-1)/M` in the unit interval (numpy: `M = 2^53`), and an index of a list of `K`
values is one of `K`. A design is uniform if it comes from equally many of all these outcomes as every other design.
-/

namespace GPyOpt.Spec

/-- The number of outcomes for one variable. -/
def rawSize (M : Nat) : Kind → Nat
  | .continuous _ _ => M
  | .discrete vals => vals.length
  | .categorical labels => labels.length
  | .bandit arms => arms.length

/-- The value of a variable for an outcome. -/
def rawValue (M : Nat) : Kind → Nat → ℚ
  | .continuous lo hi, j => lo + (hi - lo) * ((j : ℚ) / M)
  | .discrete vals, j => vals[j]?.getD 0
  | .categorical labels, j => labels[j]?.getD 0
  | .bandit _, _ => 0

/-- The outcomes for one row. -/
abbrev RawRow (M : Nat) (ks : List Kind) : Type := (i : Fin ks.length) → Fin (rawSize M (ks.get i))

/-- The row of an outcome. -/
def rawRow {M : Nat} {ks : List Kind} (ρ : RawRow M ks) : Vec :=
  List.ofFn fun i => rawValue M (ks.get i) (ρ i)

/-- The outcomes of a row as a list. -/
def rawIdx {M : Nat} {ks : List Kind} (ρ : RawRow M ks) : List Nat := List.ofFn fun i => (ρ i : Nat)

/-- The entries for the continuous variables. -/
def contIdx : List Kind → List Nat → List Nat
  | k :: ks, i :: is => if k.isContinuous then i :: contIdx ks is else contIdx ks is
  | _, _ => []

/-- What `n` rows of outcomes are for the design; `junk` is the content of new arrays. -/
def drawOf {M : Nat} {ks : List Kind} {n : Nat} (junk : Nat → Nat → ℚ) (ω : Fin n → RawRow M ks) : Draw where
  junk := junk
  choice := fun i r => if h : r < n then (rawIdx (ω ⟨r, h⟩))[i]?.getD 0 else 0
  unif := fun k r => if h : r < n then (((contIdx ks (rawIdx (ω ⟨r, h⟩)))[k]?.getD 0 : Nat) : ℚ) / M else 0

/-- `N` rounds of outcomes. -/
def oracleOf {M : Nat} {ks : List Kind} {n N : Nat} (junk : Nat → Nat → ℚ) (ω : Fin N → Fin n → RawRow M ks) :
    DesignOracle where
  draws := fun i => if h : i < N then drawOf junk (ω ⟨i, h⟩) else { junk := junk, choice := fun _ _ => 0, unif := fun _ _ => 0 }
  lhs := fun _ _ => 0
  sobol := fun _ _ => 0
  fuel := N

/-- Different outcomes are different values. -/
def Distinct : Kind → Prop
  | .continuous lo hi => lo < hi
  | .discrete vals => vals.Nodup
  | .categorical labels => labels.Nodup
  | .bandit _ => False

end GPyOpt.Spec
