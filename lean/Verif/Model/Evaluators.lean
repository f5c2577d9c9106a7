import Verif.Model.Optimizer

/-!
# Model of `GPyOpt/core/evaluators/` and of `BO._compute_next_evaluations`
-/

namespace GPyOpt

/-- `zip_and_tuple` (`evaluators/base.py:89-95`). -/
def zipTuple (sp : Space) (x : Vec) : Py Vec := (sp.zipInputs [x]).map List.flatten

/-- External inputs of one batch computation: those of `acquisition.optimize`, and those of the
anchor point generator and local optimizer of the batch method. -/
structure BatchOracle where
  acq : AcqOracle
  batch : AcqOracle

/-- `Sequential.compute_batch` (`sequential.py:18-23`). -/
def sequentialBatch (sp : Space) (ctx : Ctx) (dup : Option DupMgr) (op : AcqOptions)
    (o : BatchOracle) (f : Vec → Py ℚ) : Py Mat :=
  match acqOptimize sp ctx dup op o.acq f with
  | .error e => .error e
  | .ok (x, _) => .ok [x]

/-- The loop over the anchor points of `compute_batch` (`evaluators/base.py:64-81`), `k` is the
position of the anchor point; `optAnchor` is `optimize_anchor_point`. -/
def batchLoop (sp : Space) (optAnchor : Nat → Vec → Py Vec) (batchSize : Nat) :
    Nat → Mat → (batch : Mat) → (seen : List Vec) → Py Mat
  | _, [], batch, _ => .ok batch
  | k, a :: as, batch, seen => match optAnchor k a with
    | .error e => .error e
    | .ok x => match zipTuple sp x with
      | .error e => .error e
      | .ok zx =>
        if zx ∉ seen then
          if (batch ++ [x]).length = batchSize then .ok (batch ++ [x])
          else batchLoop sp optAnchor batchSize (k + 1) as (batch ++ [x]) (zx :: seen)
        else match zipTuple sp a with
          | .error e => .error e
          | .ok za =>
            if za ∉ seen then
              if (batch ++ [a]).length = batchSize then .ok (batch ++ [a])
              else batchLoop sp optAnchor batchSize (k + 1) as (batch ++ [a]) (za :: seen)
            else if batch.length = batchSize then .ok batch
            else batchLoop sp optAnchor batchSize (k + 1) as batch seen

/-- `np.vstack` of a list of rows: an empty list is a `ValueError`. -/
def vstack (m : Mat) : Py Mat := if m = [] then .error .valueError else .ok m

/-- `SamplingBasedBatchEvaluator.compute_batch` with a duplicate manager
(`evaluators/base.py:54-87`); `x0` is the result of `initialize_batch` (evaluated after the anchor
points), which is used only if it has a non-zero entry (`:60`). -/
def dedupBatch (sp : Space) (dm : DupMgr) (anchors : Py Mat) (x0 : Py (Option Vec))
    (optAnchor : Nat → Vec → Py Vec) (batchSize : Nat) : Py Mat :=
  match anchors with
  | .error e => .error e
  | .ok as => match x0 with
    | .error e => .error e
    | .ok x0 =>
      let start : Py (Mat × List Vec) := match x0 with
        | none => .ok ([], dm.points)
        | some x => if npAny [x] then
            (match zipTuple sp x with
              | .error e => .error e
              | .ok zx => .ok ([x], zx :: dm.points))
          else .ok ([], dm.points)
      match start with
      | .error e => .error e
      | .ok (batch, seen) => match batchLoop sp optAnchor batchSize 0 as batch seen with
        | .error e => .error e
        | .ok b => vstack b

/-- Anchor points of `RandomBatch` (`batch_random.py:28-35`): `10000` samples, `5*batch_size`
anchor points. -/
def randomBatchAnchors (sp : Space) (ctx : Ctx) (dup : Option DupMgr) (numSamples batchSize : Nat)
    (o : AcqOracle) : Py Mat :=
  anchorPoints sp (some ctx) dup dup.isSome "random" numSamples (5 * batchSize) o.design
    randomScores o.argsort

/-- `RandomBatch.compute_batch` (`batch_random.py:22-45`). Without duplicate logic the optimum is
computed before the anchor points (`:43`). -/
def randomBatch (sp : Space) (ctx : Ctx) (dup : Option DupMgr) (op : AcqOptions)
    (numSamples batchSize : Nat) (o : BatchOracle) (f : Vec → Py ℚ) : Py Mat :=
  match dup with
  | some dm =>
    dedupBatch sp dm (randomBatchAnchors sp ctx dup numSamples batchSize o.batch)
      ((acqOptimize sp ctx dup op o.acq f).map fun r => some r.1) (fun _ a => .ok a) batchSize
  | none => match acqOptimize sp ctx none op o.acq f with
    | .error e => .error e
    | .ok (x, _) => match randomBatchAnchors sp ctx none numSamples batchSize o.batch with
      | .error e => .error e
      | .ok as => .ok (x :: as.take (batchSize - 1))

/-- `ThompsonBatch.optimize_anchor_point` (`batch_thompson.py:39-50`). -/
def thompsonOptimize (sp : Space) (ctx : Ctx) (dup : Option DupMgr) (o : AcqOracle)
    (f : Vec → Py ℚ) (k : Nat) (a : Vec) : Py Vec :=
  match applyOptimizer sp (some ctx) dup (o.opt k) f a with
  | .error e => .error e
  | .ok (x, _) => match sp.roundOptimum2d [x] with
    | .error e => .error e
    | .ok [r] => .ok r
    | .ok _ => .error .unmodelled

/-- Anchor points of `ThompsonBatch` (`batch_thompson.py:31-37`). -/
def thompsonBatchAnchors (sp : Space) (ctx : Ctx) (dup : Option DupMgr) (numSamples batchSize : Nat)
    (o : AcqOracle) : Py Mat :=
  anchorPoints sp (some ctx) dup dup.isSome "random" numSamples (5 * batchSize) o.design
    o.thompson o.argsort

/-- `ThompsonBatch.compute_batch` (`batch_thompson.py:27-54`). -/
def thompsonBatch (sp : Space) (ctx : Ctx) (dup : Option DupMgr) (numSamples batchSize : Nat)
    (o : BatchOracle) (f : Vec → Py ℚ) : Py Mat :=
  match dup with
  | some dm =>
    dedupBatch sp dm (thompsonBatchAnchors sp ctx dup numSamples batchSize o.batch) (.ok none)
      (thompsonOptimize sp ctx dup o.batch f) batchSize
  | none => match thompsonBatchAnchors sp ctx none numSamples batchSize o.batch with
    | .error e => .error e
    | .ok as =>
      match mapE (fun ka : Vec × Nat => thompsonOptimize sp ctx none o.batch f ka.2 ka.1)
          (as.zipIdx.take batchSize) with
      | .error e => .error e
      | .ok b => vstack b

/-- State of an `AcquisitionLP` that matters to its optimization: the penalizer centres with the
constants they were computed from (`LP.py:40-46`). -/
structure LPState where
  penalizers : Option Mat
  consts : Option (ℚ × ℚ)
  deriving DecidableEq

/-- `update_batches` (`LP.py:40-46`): the constants of the penalizers are recomputed only if there
is a batch. -/
def LPState.update (s : LPState) (X : Option Mat) (c : Option (ℚ × ℚ)) : LPState :=
  match X with
  | none => { s with penalizers := none }
  | some X => { penalizers := some X, consts := c }

/-- The `while` loop of `LocalPenalization.compute_batch` (`batch_local_penalization.py:41-45`):
`todo` further points; `optimize k s` is the result of the `k`-th optimization, with the acquisition
in state `s`. Also returns the acquisition states the optimizations were run in. -/
def lpLoop (optimize : Nat → LPState → Py Vec) (c : ℚ × ℚ) :
    (todo k : Nat) → (batch : Mat) → LPState → List LPState → Py (Mat × LPState × List LPState)
  | 0, _, batch, s, tr => .ok (batch, s, tr)
  | todo + 1, k, batch, s, tr =>
    let s' := s.update (some batch) (some c)
    match optimize k s' with
    | .error e => .error e
    | .ok x => lpLoop optimize c todo (k + 1) (batch ++ [x]) s' (tr ++ [s'])

/-- `LocalPenalization.compute_batch` (`batch_local_penalization.py:22-48`); `consts` are
`(estimate_L(..), Y.min())`, computed if `batch_size > 1`. The duplicate manager is not used. -/
def lpBatch (optimize : Nat → LPState → Py Vec) (consts : Py (ℚ × ℚ)) (batchSize : Nat)
    (s : LPState) : Py (Mat × LPState × List LPState) :=
  let s0 := s.update none none
  match optimize 0 s0 with
  | .error e => .error e
  | .ok x =>
    if 1 < batchSize then
      match consts with
      | .error e => .error e
      | .ok c => match lpLoop optimize c (batchSize - 1) 1 [x] s0 [s0] with
        | .error e => .error e
        | .ok (b, s', tr) => .ok (b, s'.update none none, tr)
    else .ok ([x], s0.update none none, [s0])

/-- The evaluators (`evaluators/__init__.py`). -/
inductive Evaluator
  | sequential
  | random (batchSize : Nat)
  | thompson (batchSize : Nat)
  | localPenalization (batchSize : Nat)

/-- Everything `compute_batch` of an evaluator depends on besides space, context and duplicate
manager: the acquisition function, the options, the random sources, numbers of samples. For local
penalization the acquisition depends on the penalizers. -/
structure EvalEnv where
  op : AcqOptions := {}
  f : Vec → Py ℚ
  oracle : BatchOracle
  numSamplesRandom : Nat := 10000
  numSamplesThompson : Nat := 25000
  fLP : LPState → Vec → Py ℚ
  acqLP : Nat → AcqOracle
  lpConsts : Py (ℚ × ℚ)
  lpState : LPState

/-- `evaluator.compute_batch(duplicate_manager, context_manager)`. -/
def computeBatch (ev : Evaluator) (env : EvalEnv) (sp : Space) (ctx : Ctx) (dup : Option DupMgr) :
    Py Mat :=
  match ev with
  | .sequential => sequentialBatch sp ctx dup env.op env.oracle env.f
  | .random n => randomBatch sp ctx dup env.op env.numSamplesRandom n env.oracle env.f
  | .thompson n => thompsonBatch sp ctx dup env.numSamplesThompson n env.oracle env.f
  | .localPenalization n =>
    (lpBatch (fun k s => (acqOptimize sp ctx none env.op (env.acqLP k) (env.fLP s)).map Prod.fst)
      env.lpConsts n env.lpState).map fun r => r.1

/-- `BO._compute_next_evaluations` (`bo.py:223-241`). -/
def computeNext (ev : Evaluator) (env : EvalEnv) (sp : Space) (context : Option Context)
    (deDup : Bool) (X : Mat) (pending ignored : Option Mat) : Py Mat :=
  match contextManager sp context with
  | .error e => .error e
  | .ok ctx =>
    let dup := if deDup then some (dupMgr X pending ignored) else none
    match computeBatch ev env sp ctx dup with
    | .error e => .error e
    | .ok b => sp.zipInputs b

end GPyOpt
