import Verif.Spec.Correspond
import Verif.Spec.Space

/-!
# Specification: constraints with the same feasible set

A user writes constraints as expressions.  What they mean is a set of rows: those at which every expression
is at most zero.
-/

namespace GPyOpt.Spec

/-- A row meets the constraints, if there are any. -/
def Meets (cs : Option (List ConstrDict)) (x : Vec) : Prop := ∀ l, cs = some l → Feasible l x

/-- The constraints can be evaluated at every row of `n` numbers. -/
def CanEvaluate (n : Nat) (cs : Option (List ConstrDict)) : Prop :=
  ∀ l, cs = some l → ∀ d ∈ l, ∃ f, constraintOf d = some f ∧ ∀ x : Vec, x.length = n → ∃ v, f x = .ok v

/-- Constraints that can be evaluated at rows of `n` numbers, and that the same rows meet. -/
structure SameFeasible (n : Nat) (cs cs' : Option (List ConstrDict)) : Prop where
  eval : CanEvaluate n cs
  eval' : CanEvaluate n cs'
  meets : ∀ x : Vec, x.length = n → (Meets cs' x ↔ Meets cs x)

/-- Two evaluators with the same acquisition: its values agree at rows of `N` model columns; everything else
is the same, and the local optimizers are over the `n` columns that are free of the context. -/
structure SameAcquisition (N n : Nat) (env env' : EvalEnv) : Prop where
  rest : env' = { env with f := env'.f, fLP := env'.fLP }
  f : ∀ x : Vec, x.length = N → env'.f x = env.f x
  fLP : ∀ s (x : Vec), x.length = N → env'.fLP s x = env.fLP s x
  acq : ∀ k, SameWork n id (env.oracle.acq.opt k) (env.oracle.acq.opt k)
  batch : ∀ k, SameWork n id (env.oracle.batch.opt k) (env.oracle.batch.opt k)
  lp : ∀ j k, SameWork n id ((env.acqLP j).opt k) ((env.acqLP j).opt k)

/-- An evaluator that draws only from random designs, and at least one round of each. -/
structure RandomOnly (env : EvalEnv) : Prop where
  logic : env.op.anchorLogic ≠ "thompson_sampling"
  acq : 1 ≤ env.oracle.acq.design.fuel
  batch : 1 ≤ env.oracle.batch.design.fuel
  lp : ∀ k, 1 ≤ (env.acqLP k).design.fuel

end GPyOpt.Spec
