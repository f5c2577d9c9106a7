import Verif.Model.BO

/-!
# Specification: two problems that correspond

Two optimization problems whose rows correspond: `E` turns a row of model columns of the first into a
row of the second, `F` does so for the columns that are free of the context, `O` for rows of the
objective.  The external parts (random designs, local optimizers, acquisition, model) of the two are
said to correspond if they do the same work on corresponding rows.
-/

namespace GPyOpt.Spec

/-- The design that draws the samples of an optimization of the acquisition. -/
def anchorDesign (logic : String) : Option String :=
  if logic = "max_objective" then some "random" else if logic = "thompson_sampling" then some "sobol" else none

/-- The designs that an evaluator draws samples from: with or without repeated rows, and the type. `deDup`
says whether locations that are known are avoided. -/
def designsDrawn (ev : Evaluator) (logic : String) (deDup : Bool) : List (Bool × String) :=
  let acq := (anchorDesign logic).toList.map (false, ·)
  match ev with
  | .sequential => acq
  | .localPenalization _ => acq
  | .random _ => (deDup, "random") :: acq
  | .thompson _ => [(deDup, "random")]

/-- Two local optimizers over `n` columns that do the same work: for functions with the same values
they return corresponding locations. -/
def SameWork (n : Nat) (F : Vec → Vec) (opt opt' : (Vec → Py ℚ) → Vec → Py Vec) : Prop :=
  ∀ (g g' : Vec → Py ℚ) (x : Vec), x.length = n → (∀ y, y.length = n → g' (F y) = g y) →
    opt' g' (F x) = (opt g x).map F ∧ ∀ y, opt g x = .ok y → y.length = n

/-- External inputs of an optimization of the acquisition that correspond; `N` is the number of model
columns, `n` the number of free ones, `same` says that the designs draw corresponding samples. -/
structure CorrOracle (N n : Nat) (E F : Vec → Vec) (same : DesignOracle → DesignOracle → Prop)
    (o o' : AcqOracle) : Prop where
  design : same o.design o'.design
  argsort : o'.argsort = o.argsort
  thompson : ∀ X : Mat, (∀ r ∈ X, r.length = N) → o'.thompson (X.map E) = o.thompson X
  opt : ∀ k, SameWork n F (o.opt k) (o'.opt k)

/-- The centres of the penalizers, mapped. -/
def mapLP (E : Vec → Vec) (s : LPState) : LPState := { s with penalizers := s.penalizers.map (List.map E) }

/-- The centres of the penalizers are rows of `N` columns. -/
def CentresOver (N : Nat) (s : LPState) : Prop := ∀ m : Mat, s.penalizers = some m → ∀ r ∈ m, r.length = N

/-- Evaluators and acquisitions that correspond: the same options, the same value of the acquisition
at corresponding locations (rows of `N` model columns, `n` of them free of the context). -/
structure CorrEnv (N n : Nat) (E F : Vec → Vec) (same : DesignOracle → DesignOracle → Prop)
    (env env' : EvalEnv) : Prop where
  op : env'.op = env.op
  f : ∀ x, x.length = N → env'.f (E x) = env.f x
  acq : CorrOracle N n E F same env.oracle.acq env'.oracle.acq
  batch : CorrOracle N n E F same env.oracle.batch env'.oracle.batch
  samplesRandom : env'.numSamplesRandom = env.numSamplesRandom
  samplesThompson : env'.numSamplesThompson = env.numSamplesThompson
  fLP : ∀ s x, CentresOver N s → x.length = N → env'.fLP (mapLP E s) (E x) = env.fLP s x
  acqLP : ∀ k, CorrOracle N n E F same (env.acqLP k) (env'.acqLP k)
  lpConsts : env'.lpConsts = env.lpConsts
  lpState : env'.lpState = mapLP E env.lpState

/-- The state of an optimizer, its rows mapped: `E` for model rows, `O` for rows of the objective, `κ` for
the context, `pc` for the parameters of the model. -/
def mapState (E O : Vec → Vec) (κ : Option Context → Option Context) (pc : Vec → Vec) (s : BOState) : BOState :=
  { s with
    X := s.X.map O
    context := κ s.context
    params := s.params.map (List.map pc)
    cost := { s.cost with data := s.cost.data.map fun d => (d.1.map O, d.2) }
    results := s.results.map fun r => { r with xOpt := O r.xOpt }
    world := { s.world with calls := s.world.calls.map fun p => (O p.1, p.2) }
    fits := s.fits.map fun f => { f with X := f.X.map E } }

/-- Components of two optimizers that correspond: the same objective, clock, normalization and interval;
fits with the same outcome; corresponding parameters of the model. -/
structure CorrParts (E O : Vec → Vec) (κ : Option Context → Option Context) (pc : Vec → Vec)
    (env env' : BOEnv) : Prop where
  obj : match env.obj, env'.obj with
    | none, none => True
    | some f, some g => ∀ k x, g k (O x) = f k x
    | _, _ => False
  clock : env'.clock = env.clock
  fit : ∀ s X Y, env'.fit (mapState E O κ pc s) (X.map E) Y = env.fit s X Y
  params : ∀ s, env'.params (mapState E O κ pc s) = (env.params s).map pc
  costFit : ∀ s, env'.costFit (mapState E O κ pc s) = env.costFit s
  lg : env'.lg = env.lg
  normalizeY : env'.normalizeY = env.normalizeY
  normalize : env'.normalize = env.normalize
  interval : env'.interval = env.interval

/-- A local optimizer whose results, with the context, are in `ok`. -/
def OptOk (sp : Space) (c : Ctx) (ok : Vec → Prop) (opt : (Vec → Py ℚ) → Vec → Py Vec) : Prop :=
  ∀ g x y yc, opt g x = .ok y → c.expandVector sp y = .ok yc → ok yc

/-- All local optimizers of an evaluator have results in `ok`. -/
structure EnvOk (sp : Space) (c : Ctx) (ok : Vec → Prop) (env : EvalEnv) : Prop where
  acq : ∀ k, OptOk sp c ok (env.oracle.acq.opt k)
  batch : ∀ k, OptOk sp c ok (env.oracle.batch.opt k)
  lp : ∀ k j, OptOk sp c ok ((env.acqLP k).opt j)

end GPyOpt.Spec
