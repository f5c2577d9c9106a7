import Verif.Spec.Space
import Verif.Model.BO
import Verif.Lemmas.Space

/-!
# Specification: other units of the variables

A unit `(a, b)` turns the value `x` of a variable into `a * x + b` (metres into centimetres, degrees
Celsius into degrees Fahrenheit).  The values of a categorical variable are category numbers: they
have no unit.
-/

namespace GPyOpt.Spec

/-- The value in the other unit. -/
def conv (u : ℚ × ℚ) (x : ℚ) : ℚ := u.1 * x + u.2

/-- A row in other units, column by column. -/
def convRow : List (ℚ × ℚ) → Vec → Vec
  | u :: us, x :: xs => conv u x :: convRow us xs
  | _, xs => xs

/-- The domain of a variable in the other unit. -/
def convKind (u : ℚ × ℚ) : Kind → Kind
  | .continuous lo hi => .continuous (conv u lo) (conv u hi)
  | .discrete vals => .discrete (vals.map (conv u))
  | k => k

/-- A unit that suits a variable: increasing, and none at all for categories. -/
def UnitFor (u : ℚ × ℚ) (k : Kind) : Prop :=
  0 < u.1 ∧ match k with
    | .categorical _ => u = (1, 0)
    | .bandit _ => False
    | _ => True

/-- The units of the model columns: each variable has `width` of them. -/
def colUnits (us : List (ℚ × ℚ)) (ks : List Kind) : List (ℚ × ℚ) :=
  (List.zipWith (fun u k => List.replicate (width k) u) us ks).flatten

/-- Bounds in other units. -/
def convBounds (us : List (ℚ × ℚ)) (bs : List (ℚ × ℚ)) : List (ℚ × ℚ) :=
  List.zipWith (fun u b => (conv u b.1, conv u b.2)) us bs

/-- `sp'` is the space `sp` with its one-dimensional variables in the units `us`. Spaces with bandit
variables are left out. -/
structure OtherUnits (us : List (ℚ × ℚ)) (sp sp' : Space) : Prop where
  built : ∃ config cs, designSpace config cs = .ok sp
  built' : ∃ config cs, designSpace config cs = .ok sp'
  noBandit : sp.hasBandit = false
  noBandit' : sp'.hasBandit = false
  units : List.Forall₂ UnitFor us (sp.expanded.map EVar.kind)
  kinds : sp'.expanded.map EVar.kind = List.zipWith convKind us (sp.expanded.map EVar.kind)

/-- The `'domain'` of a description in another unit. -/
def convDom (u : ℚ × ℚ) : Dom → Dom
  | .flat vals => .flat (vals.map (conv u))
  | d => d

/-- A description in another unit. -/
def convDesc (u : ℚ × ℚ) (d : Desc) : Desc := { d with domain := d.domain.map (convDom u) }

/-- A unit that suits a description. -/
def DescUnit (u : ℚ × ℚ) (d : Desc) : Prop :=
  0 < u.1 ∧ d.type ≠ some "bandit" ∧ (d.type = some "categorical" → u = (1, 0))

/-- The units of the one-dimensional variables of a domain, from those of its descriptions. -/
def descUnits (ws : List (ℚ × ℚ)) (ds : List Desc) : List (ℚ × ℚ) :=
  (List.zipWith (fun w d => List.replicate (d.dimensionality.getD 1) w) ws ds).flatten

/-- Two constraints that accept the same rows, the second in the units `us` (or both raise the same
exception). -/
def SameVerdict (us : List (ℚ × ℚ)) (c c' : ConstrDict) : Prop :=
  match constraintOf c, constraintOf c' with
  | none, none => True
  | some f, some g => ∀ x, (f x).map (fun v => decide (v ≤ 0))
      = (g (convRow us x)).map (fun v => decide (v ≤ 0))
  | _, _ => False

/-- The same constraints, the second list in the units `us`. -/
inductive SameConstraints (us : List (ℚ × ℚ)) : Option (List ConstrDict) → Option (List ConstrDict) → Prop
  | none : SameConstraints us none none
  | some {cs cs' : List ConstrDict} (h : List.Forall₂ (SameVerdict us) cs cs') :
      SameConstraints us (some cs) (some cs')

/-- The unit of a context variable. -/
def contextUnit (us : List (ℚ × ℚ)) (sp : Space) (name : String) : ℚ × ℚ :=
  match sp.findVariable name with
  | .ok v => us.getD v.idxObj (1, 0)
  | .error _ => (1, 0)

/-- A context in other units. -/
def convContext (us : List (ℚ × ℚ)) (sp : Space) (c : Context) : Context :=
  c.map fun p => (p.1, conv (contextUnit us sp p.1) p.2)

/-- The units at the positions `idx`. -/
def pickUnits (us : List (ℚ × ℚ)) (idx : List Nat) : List (ℚ × ℚ) := idx.map fun i => us.getD i (1, 0)

/-- A context manager in other units; `cu` are the units of the model columns. -/
def convCtx (cu : List (ℚ × ℚ)) (c : Ctx) : Ctx :=
  { c with
    contextValue := convRow (pickUnits cu c.contextIndex) c.contextValue
    noncontextBounds := convBounds (pickUnits cu c.noncontextIndex) c.noncontextBounds }

/-- The same points of a duplicate manager in other units. -/
def convDup (us : List (ℚ × ℚ)) (dm : DupMgr) : DupMgr := ⟨dm.points.map (convRow us)⟩

/-- Two local optimizers over `n` columns that do the same work, the second in the units `us`: for
functions with the same values they return the same location. -/
def SameOptimizer (n : Nat) (us : List (ℚ × ℚ)) (opt opt' : (Vec → Py ℚ) → Vec → Py Vec) : Prop :=
  ∀ (g g' : Vec → Py ℚ) (x : Vec), x.length = n → (∀ y, y.length = n → g' (convRow us y) = g y) →
    opt' g' (convRow us x) = (opt g x).map (convRow us) ∧ ∀ y, opt g x = .ok y → y.length = n

/-- External inputs of an optimization of the acquisition that correspond: the same random numbers,
the same scores of corresponding samples, local optimizers that do the same work on the free
columns. -/
structure SameOracle (cu : List (ℚ × ℚ)) (c : Ctx) (o o' : AcqOracle) : Prop where
  design : o'.design = o.design
  argsort : o'.argsort = o.argsort
  thompson : ∀ X, o'.thompson (X.map (convRow cu)) = o.thompson X
  opt : ∀ k, SameOptimizer c.noncontextIndex.length (pickUnits cu c.noncontextIndex) (o.opt k) (o'.opt k)

/-- The centres of the penalizers in other units. -/
def convLP (cu : List (ℚ × ℚ)) (s : LPState) : LPState :=
  { s with penalizers := s.penalizers.map (List.map (convRow cu)) }

/-- Evaluators and acquisitions that correspond: the same options, the same value of the acquisition
at corresponding locations. -/
structure SameEnv (cu : List (ℚ × ℚ)) (c : Ctx) (env env' : EvalEnv) : Prop where
  op : env'.op = env.op
  f : ∀ x, env'.f (convRow cu x) = env.f x
  acq : SameOracle cu c env.oracle.acq env'.oracle.acq
  batch : SameOracle cu c env.oracle.batch env'.oracle.batch
  samplesRandom : env'.numSamplesRandom = env.numSamplesRandom
  samplesThompson : env'.numSamplesThompson = env.numSamplesThompson
  fLP : ∀ s x, env'.fLP (convLP cu s) (convRow cu x) = env.fLP s x
  acqLP : ∀ k, SameOracle cu c (env.acqLP k) (env'.acqLP k)
  lpConsts : env'.lpConsts = env.lpConsts
  lpState : env'.lpState = convLP cu env.lpState

/-- The state of an optimizer in other units: `us` for objective rows, `cu` for model rows, `pc` for the
parameters of the model (length scales have units too). -/
def convState (us cu : List (ℚ × ℚ)) (sp : Space) (pc : Vec → Vec) (s : BOState) : BOState :=
  { s with
    X := s.X.map (convRow us)
    context := s.context.map (convContext us sp)
    params := s.params.map (List.map pc)
    cost := { s.cost with data := s.cost.data.map fun d => (d.1.map (convRow us), d.2) }
    results := s.results.map fun r => { r with xOpt := convRow us r.xOpt }
    world := { s.world with calls := s.world.calls.map fun p => (convRow us p.1, p.2) }
    fits := s.fits.map fun f => { f with X := f.X.map (convRow cu) } }

/-- Components of two optimizers that correspond: the same objective, clock, normalization and interval;
fits with the same outcome; parameters of the model up to their units. -/
structure SameParts (us : List (ℚ × ℚ)) (sp : Space) (pc : Vec → Vec) (env env' : BOEnv) : Prop where
  obj : match env.obj, env'.obj with
    | none, none => True
    | some f, some g => ∀ k x, g k (convRow us x) = f k x
    | _, _ => False
  clock : env'.clock = env.clock
  fit : ∀ s X Y, env'.fit (convState us (colUnits us sp.kinds) sp pc s)
    (X.map (convRow (colUnits us sp.kinds))) Y = env.fit s X Y
  params : ∀ s, env'.params (convState us (colUnits us sp.kinds) sp pc s) = (env.params s).map pc
  costFit : ∀ s, env'.costFit (convState us (colUnits us sp.kinds) sp pc s) = env.costFit s
  lg : env'.lg = env.lg
  normalizeY : env'.normalizeY = env.normalizeY
  normalize : env'.normalize = env.normalize
  interval : env'.interval = env.interval

/-- The stopping rule answers the same in other units: whether the last two locations are at most `eps`,
in the other units `eps'`, apart. -/
def SameStop (us : List (ℚ × ℚ)) (eps eps' : ℚ) : Prop :=
  ∀ X : Mat, (∀ r ∈ X, r.length = us.length) →
    lastTwoClose eps' (X.map (convRow us)) = lastTwoClose eps X

end GPyOpt.Spec
