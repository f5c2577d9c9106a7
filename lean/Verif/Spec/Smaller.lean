import Verif.Spec.Correspond
import Verif.Spec.Suggest
import Verif.Spec.Space
import Verif.Lemmas.Space

/-!
# Specification: the smaller problem that is left by a context

A context fixes some of the variables.  What is left is a problem with fewer variables, whose rows are
filled up with the values of the context.
-/

namespace GPyOpt.Spec

/-- The values that a context fixes: one entry per one-dimensional variable, `none` for a free one. -/
def pinned (sp : Space) (context : Context) : List (Option ℚ) :=
  sp.expanded.map fun v => context.lookup v.name

/-- Fill the free positions of `p` with the entries of a row. -/
def fill : List (Option ℚ) → Vec → Vec
  | [], _ => []
  | some v :: p, z => v :: fill p z
  | none :: p, x :: z => x :: fill p z
  | none :: p, [] => fill p []

/-- The entries at the free positions of `p`. -/
def unpinned {α : Type} : List (Option ℚ) → List α → List α
  | none :: p, a :: l => a :: unpinned p l
  | some _ :: p, _ :: l => unpinned p l
  | _, _ => []

/-- The fixed values of the model columns: the columns of a fixed variable hold its code. -/
def colPinned (p : List (Option ℚ)) (ks : List Kind) : List (Option ℚ) :=
  (List.zipWith (fun o k => match o with
    | none => List.replicate (width k) none
    | some v => (encodeVal k v).map some) p ks).flatten

/-- The rows of `X` that carry the fixed values, without them. -/
def inContext (p : List (Option ℚ)) (X : Mat) : Mat :=
  (X.filter fun r => r = fill p (unpinned p r)).map (unpinned p)

/-- `spF` is the space of the variables of `sp` that the context leaves free; there is at least one. The
constraints are those of `sp`: the code applies them to the free variables alone. -/
structure Smaller (sp : Space) (context : Context) (spF : Space) : Prop where
  built : ∃ config cs, designSpace config cs = .ok sp
  built' : ∃ config cs, designSpace config cs = .ok spF
  noBandit : sp.hasBandit = false
  noBandit' : spF.hasBandit = false
  names : (sp.expanded.map EVar.name).Nodup
  domains : ∀ k ∈ sp.kinds, NonEmptyDom k
  valid : ValidContext sp (some context)
  kinds : spF.kinds = unpinned (pinned sp context) sp.kinds
  free : spF.kinds ≠ []
  constraints : spF.constraints = sp.constraints

/-- The random source of the smaller problem: that of the full problem, at the rows filled up. -/
def restrictOracle (E : Vec → Vec) (o : AcqOracle) : AcqOracle :=
  { o with thompson := fun X => o.thompson (X.map E) }

/-- The acquisition of the smaller problem: that of the full problem, at the rows filled up. -/
def restrictEnv (E : Vec → Vec) (env : EvalEnv) : EvalEnv :=
  { env with
    f := fun x => env.f (E x)
    oracle := ⟨restrictOracle E env.oracle.acq, restrictOracle E env.oracle.batch⟩
    fLP := fun s x => env.fLP (mapLP E s) (E x)
    acqLP := fun k => restrictOracle E (env.acqLP k) }

/-- A local optimizer over `n` columns: it evaluates and returns rows of `n` columns. -/
def OptimizerOver (n : Nat) (opt : (Vec → Py ℚ) → Vec → Py Vec) : Prop := SameWork n id opt opt

/-- All local optimizers are over `n` columns, and no penalizers are left from before. -/
structure EnvOver (n : Nat) (env : EvalEnv) : Prop where
  acq : ∀ k, OptimizerOver n (env.oracle.acq.opt k)
  batch : ∀ k, OptimizerOver n (env.oracle.batch.opt k)
  lp : ∀ j k, OptimizerOver n ((env.acqLP j).opt k)
  penalizers : env.lpState.penalizers = none

end GPyOpt.Spec
