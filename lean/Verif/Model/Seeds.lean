import Verif.Model.BO

/-!
# Model of the use of numpy's global random generator

The other models take the random numbers of a call as parameters. Here they are taken, in the order of the code, from one
generator whose state is shared by all calls (`np.random`). Not modelled: designs other than `random`, acquisition optimizers
that draw (CMA), anchor points of the acquisition by Thompson sampling, the fit of a cost model, objectives that draw.
-/

namespace GPyOpt

/-- The functions of `np.random` that are called (`random_design.py:45`, `:51`, `:76`, `anchor_points_generator.py:88`): the
numbers and the next state. `choice s k n` are `n` positions below `k`; `unif s n` and `normal s n` are `n` standard numbers, which
numpy scales. -/
structure Gen (S : Type) where
  choice : S → Nat → Nat → (Nat → Nat) × S
  unif : S → Nat → (Nat → ℚ) × S
  normal : S → Nat → (Nat → ℚ) × S

variable {S : Type}

/-- The number of values that a variable which is not continuous is drawn from. -/
def drawnFrom : Kind → Option Nat
  | .continuous .. => none
  | .discrete vals => some vals.length
  | .categorical labels => some labels.length
  | .bandit arms => some arms.length

/-- The numbers drawn by `fill_noncontinous_variables` (`random_design.py:37-53`): one call per variable. -/
def choiceDraws (g : Gen S) (n : Nat) : Nat → List EVar → S → (Nat → Nat → Nat) × S
  | _, [], s => (fun _ _ => 0, s)
  | idx, v :: vs, s => match drawnFrom v.kind with
    | none => choiceDraws g n (idx + 1) vs s
    | some k =>
      let c := g.choice s k n
      let r := choiceDraws g n (idx + 1) vs c.2
      (fun i => if i = idx then c.1 else r.1 i, r.2)

/-- The numbers drawn by `samples_multidimensional_uniform` (`random_design.py:67-77`, `util/general.py:63-73`): one call per
dimension. -/
def unifDraws (g : Gen S) (n : Nat) : Nat → List (ℚ × ℚ) → S → (Nat → Nat → ℚ) × S
  | _, [], s => (fun _ _ => 0, s)
  | k, _ :: bs, s =>
    let u := g.unif s n
    let r := unifDraws g n (k + 1) bs u.2
    (fun i => if i = k then u.1 else r.1 i, r.2)

/-- The numbers drawn by `get_samples_without_constraints` (`random_design.py:56-65`). The content of `np.empty` is overwritten. -/
def drawOf (g : Gen S) (sp : Space) (n : Nat) (s : S) : Draw × S :=
  let c := choiceDraws g n 0 sp.expanded s
  let u := if sp.hasContinuous then unifDraws g n 0 sp.getContinuousBounds c.2 else (fun _ _ => 0, c.2)
  ({ junk := fun _ _ => 0, choice := c.1, unif := u.1 }, u.2)

/-- The `while` loop of `get_samples_with_constraints` (`random_design.py:28-35`), drawing from the generator. -/
def seededLoop (g : Gen S) (sp : Space) (n : Nat) : (fuel : Nat) → Mat → S → Py Mat × S
  | fuel, samples, s =>
    if samples.length < n then
      match fuel with
      | 0 => (.error .outOfFuel, s)
      | fuel + 1 => match randomNoConstr sp (drawOf g sp n s).1 n with
        | .error e => (.error e, (drawOf g sp n s).2)
        | .ok dom => match sp.indicatorConstraints dom with
          | .error e => (.error e, (drawOf g sp n s).2)
          | .ok w => seededLoop g sp n fuel (samples ++ selectValid dom w) (drawOf g sp n s).2
    else (.ok (samples.take n), s)

/-- `RandomDesign.get_samples` (`random_design.py:15-19`), drawing from the generator. -/
def seededDesign (g : Gen S) (fuel : Nat) (sp : Space) (n : Nat) (s : S) : Py Mat × S :=
  if sp.hasConstraints then seededLoop g sp n fuel [] s
  else (randomNoConstr sp (drawOf g sp n s).1 n, (drawOf g sp n s).2)

/-- State after `k` rounds of draws. -/
def afterRounds (g : Gen S) (sp : Space) (n : Nat) (s : S) : Nat → S
  | 0 => s
  | k + 1 => (drawOf g sp n (afterRounds g sp n s k)).2

/-- The numbers of the rounds of a design that starts in state `s`. -/
def drawsFrom (g : Gen S) (sp : Space) (n : Nat) (s : S) (k : Nat) : Draw := (drawOf g sp n (afterRounds g sp n s k)).1

/-- Numbers of the random design of `AnchorPointsGenerator.get` (`anchor_points_generator.py:28-37`) in state `s`. -/
def anchorOracle (g : Gen S) (fuel : Nat) (sp : Space) (ctx : Ctx) (n : Nat) (s : S) (o : AcqOracle) : AcqOracle :=
  match anchorSpace sp (some ctx) with
  | .error _ => o
  | .ok (sp', _) => { o with design := { o.design with draws := drawsFrom g sp' n s, fuel := fuel } }

/-- State of the generator after this design. -/
def afterAnchors (g : Gen S) (fuel : Nat) (sp : Space) (ctx : Ctx) (n : Nat) (s : S) : S :=
  match anchorSpace sp (some ctx) with
  | .error _ => s
  | .ok (sp', _) => (seededDesign g fuel sp' n s).2

/-- What a suggestion depends on besides space, context, known locations and generator: `env` without its random numbers, the
constants of local penalization as a function of 500 uniform samples (`batch_local_penalization.py:52-72`), the scores of
Thompson sampling as a function of standard normal numbers (`anchor_points_generator.py:84-88`). -/
structure SeedEval where
  env : EvalEnv
  lip : (Nat → Nat → ℚ) → Py (ℚ × ℚ)
  normals : (Nat → ℚ) → Mat → Py (List ℚ)

/-- `AcquisitionOptimizer.optimize` (`acquisition_optimizer.py:47-78`) with anchor points of the default logic, drawing from the
generator. -/
def seededOptimize (g : Gen S) (fuel : Nat) (sp : Space) (ctx : Ctx) (dup : Option DupMgr) (op : AcqOptions) (o : AcqOracle)
    (f : Vec → Py ℚ) (s : S) : Py (Vec × ℚ) × S :=
  match chooseOptimizer op.optimizerName with
  | .error e => (.error e, s)
  | .ok _ => (acqOptimize sp ctx dup op (anchorOracle g fuel sp ctx op.numSamplesObjective s o) f,
      afterAnchors g fuel sp ctx op.numSamplesObjective s)

/-- `RandomBatch.compute_batch` (`batch_random.py:22-45`), drawing from the generator. -/
def seededRandom (g : Gen S) (fuel : Nat) (e : SeedEval) (sp : Space) (ctx : Ctx) (dup : Option DupMgr) (n : Nat) (s : S) :
    Py Mat × S :=
  let ns := e.env.numSamplesRandom
  match dup with
  | some dm =>
    match randomBatchAnchors sp ctx dup ns n (anchorOracle g fuel sp ctx ns s e.env.oracle.batch) with
    | .error er => (.error er, afterAnchors g fuel sp ctx ns s)
    | .ok as =>
      let r := seededOptimize g fuel sp ctx dup e.env.op e.env.oracle.acq e.env.f (afterAnchors g fuel sp ctx ns s)
      (dedupBatch sp dm (.ok as) (r.1.map fun x => some x.1) (fun _ a => .ok a) n, r.2)
  | none =>
    let r := seededOptimize g fuel sp ctx none e.env.op e.env.oracle.acq e.env.f s
    match r.1 with
    | .error er => (.error er, r.2)
    | .ok (x, _) =>
      match randomBatchAnchors sp ctx none ns n (anchorOracle g fuel sp ctx ns r.2 e.env.oracle.batch) with
      | .error er => (.error er, afterAnchors g fuel sp ctx ns r.2)
      | .ok as => (.ok (x :: as.take (n - 1)), afterAnchors g fuel sp ctx ns r.2)

/-- Number of locations that Thompson sampling scores (`anchor_points_generator.py:54-65`): the samples that are not
duplicates. -/
def scoredCount (sp : Space) (ctx : Ctx) (dup : Option DupMgr) (n : Nat) (o : AcqOracle) : Nat :=
  match anchorSamples sp (some ctx) dup.isSome "random" n o.design with
  | .error _ => 0
  | .ok X => match mapE (isDup dup sp) X with
    | .error _ => 0
    | .ok flags => (nonDuplicates X flags).length

/-- `ThompsonBatch.compute_batch` (`batch_thompson.py:27-54`), drawing from the generator. -/
def seededThompson (g : Gen S) (fuel : Nat) (e : SeedEval) (sp : Space) (ctx : Ctx) (dup : Option DupMgr) (n : Nat) (s : S) :
    Py Mat × S :=
  let o := anchorOracle g fuel sp ctx e.env.numSamplesThompson s e.env.oracle.batch
  let z := g.normal (afterAnchors g fuel sp ctx e.env.numSamplesThompson s)
    (scoredCount sp ctx dup e.env.numSamplesThompson o)
  (thompsonBatch sp ctx dup e.env.numSamplesThompson n ⟨e.env.oracle.acq, { o with thompson := e.normals z.1 }⟩ e.env.f, z.2)

/-- The `while` loop of `LocalPenalization.compute_batch` (`batch_local_penalization.py:41-45`), drawing from the generator. -/
def seededLpLoop (optimize : Nat → LPState → S → Py Vec × S) (c : ℚ × ℚ) :
    (todo k : Nat) → (batch : Mat) → LPState → S → Py Mat × S
  | 0, _, batch, _, s => (.ok batch, s)
  | todo + 1, k, batch, st, s =>
    let st' := st.update (some batch) (some c)
    match optimize k st' s with
    | (.error e, s') => (.error e, s')
    | (.ok x, s') => seededLpLoop optimize c todo (k + 1) (batch ++ [x]) st' s'

/-- The uniform samples of `estimate_L` (`batch_local_penalization.py:52-72`). -/
def lipDraws (g : Gen S) (sp : Space) (s : S) : Py (Nat → Nat → ℚ) × S :=
  match sp.getBounds with
  | .error e => (.error e, s)
  | .ok bs => let u := unifDraws g 500 0 bs s; (.ok u.1, u.2)

/-- `LocalPenalization.compute_batch` (`batch_local_penalization.py:22-48`), drawing from the generator. -/
def seededPenalized (g : Gen S) (fuel : Nat) (e : SeedEval) (sp : Space) (ctx : Ctx) (n : Nat) (s : S) : Py Mat × S :=
  let optimize (k : Nat) (st : LPState) (s : S) : Py Vec × S :=
    let r := seededOptimize g fuel sp ctx none e.env.op (e.env.acqLP k) (e.env.fLP st) s
    (r.1.map Prod.fst, r.2)
  let st := e.env.lpState.update none none
  match optimize 0 st s with
  | (.error er, s1) => (.error er, s1)
  | (.ok x, s1) =>
    if 1 < n then
      match lipDraws g sp s1 with
      | (.error er, s2) => (.error er, s2)
      | (.ok u, s2) => match e.lip u with
        | .error er => (.error er, s2)
        | .ok c => seededLpLoop optimize c (n - 1) 1 [x] st s2
    else (.ok [x], s1)

/-- `evaluator.compute_batch(duplicate_manager, context_manager)`, drawing from the generator. -/
def seededBatch (g : Gen S) (fuel : Nat) (e : SeedEval) (ev : Evaluator) (sp : Space) (ctx : Ctx) (dup : Option DupMgr) (s : S) :
    Py Mat × S :=
  match ev with
  | .sequential =>
    let r := seededOptimize g fuel sp ctx dup e.env.op e.env.oracle.acq e.env.f s
    (r.1.map fun x => [x.1], r.2)
  | .random n => seededRandom g fuel e sp ctx dup n s
  | .thompson n => seededThompson g fuel e sp ctx dup n s
  | .localPenalization n => seededPenalized g fuel e sp ctx n s

/-- `BO._compute_next_evaluations` (`bo.py:223-241`), drawing from the generator. -/
def seededNext (g : Gen S) (fuel : Nat) (e : SeedEval) (ev : Evaluator) (sp : Space) (context : Option Context) (deDup : Bool)
    (X : Mat) (pending ignored : Option Mat) (s : S) : Py Mat × S :=
  match contextManager sp context with
  | .error er => (.error er, s)
  | .ok ctx =>
    let r := seededBatch g fuel e ev sp ctx (if deDup then some (dupMgr X pending ignored) else none) s
    (r.1.bind sp.zipInputs, r.2)

/-- A `BO` object whose components draw from the generator. `eval gs s` is the state of model and acquisition when the fits
were started in the states `gs` of the generator (`optimize_restarts` draws starting points, `gpmodel.py:93`), `fitDraw` what such
a fit takes from it: the number of restarts and of hyperparameters does not depend on the data. `bo` gives all other
components; its `fit`, `params` and `suggest` are not used. -/
structure SeedBO (S : Type) where
  bo : BOEnv
  gen : Gen S
  fuel : Nat
  ev : Evaluator
  deDup : Bool
  eval : List S → BOState → SeedEval
  fit : S → BOState → Mat → Vec → Py Unit
  params : List S → BOState → Py Vec
  fitDraw : S → S

/-- The state of the object and of the generator, and the states in which the fits were started. -/
structure SeedState (S : Type) where
  st : BOState
  gen : S
  fitGens : List S

/-- State of the generator after `_update_model` (`bo.py:243-261`) at acquisition `k`. -/
def SeedBO.afterFit (e : SeedBO S) (k : Nat) (s : S) : S := if (k : Int) % e.bo.interval = 0 then e.fitDraw s else s

/-- The states in which the fits were started, after `_update_model` at acquisition `k`. -/
def SeedBO.gensAfter (e : SeedBO S) (k : Nat) (s : S) (gs : List S) : List S :=
  if (k : Int) % e.bo.interval = 0 then gs ++ [s] else gs

/-- The components in a round of the loop that starts in state `s` of the generator. -/
def SeedBO.envAt (e : SeedBO S) (s : S) (gs : List S) : BOEnv :=
  { e.bo with
    fit := e.fit s
    params := fun t => e.params (e.gensAfter t.numAcq s gs) t
    suggest := fun t p i => (seededNext e.gen e.fuel (e.eval (e.gensAfter t.numAcq s gs) t) e.ev e.bo.sp t.context e.deDup t.X p i
      (e.afterFit t.numAcq s)).1 }

/-- State of the generator after a suggestion in state `t` of the object. -/
def SeedBO.afterSuggest (e : SeedBO S) (s : S) (gs : List S) (t : BOState) (p i : Option Mat) : S :=
  (seededNext e.gen e.fuel (e.eval (e.gensAfter t.numAcq s gs) t) e.ev e.bo.sp t.context e.deDup t.X p i
    (e.afterFit t.numAcq s)).2

/-- The loop (`bo.py:139-160`), drawing from the generator. After an exception the generator is taken to be in the state of the
beginning of the round. -/
def seededBOLoop (e : SeedBO S) (obj : Nat → Vec → Py ℚ) (maxIter maxTime : Limit) (eps : ℚ) :
    (fuel : Nat) → SeedState S → SeedState S × RunResult
  | 0, t => (t, .running)
  | fuel + 1, t =>
    let s1 := (updateModel (e.envAt t.gen t.fitGens) t.st).1
    match boRound (e.envAt t.gen t.fitGens) obj maxIter maxTime eps t.st with
    | .stop s' .time => ({ t with st := s' }, .done .time)
    | .stop s' why => (⟨s', e.afterFit t.st.numAcq t.gen, e.gensAfter t.st.numAcq t.gen t.fitGens⟩, .done why)
    | .raised s' er => ({ t with st := s' }, .raised er)
    | .next s' => seededBOLoop e obj maxIter maxTime eps fuel
        ⟨s', e.afterSuggest t.gen t.fitGens s1 none none, e.gensAfter t.st.numAcq t.gen t.fitGens⟩

/-- `run_optimization` (`bo.py:78-167`), drawing from the generator. -/
def seededRun (e : SeedBO S) (a : RunArgs) (fuel : Nat) (t : SeedState S) : SeedState S × RunResult :=
  match e.bo.obj with
  | none => (t, .raised .invalidConfig)
  | some obj => match runStart e.bo obj a t.st with
    | (s1, .error er) => ({ t with st := s1 }, .raised er)
    | (s1, .ok ()) =>
      match seededBOLoop e obj a.limits.1 a.limits.2 a.eps fuel { t with st := s1 } with
      | (t2, .done why) => match t2.st.Y with
        | none => (t2, .raised .attributeError)
        | some Y => match computeResults t2.st.X Y with
          | .error er => (t2, .raised er)
          | .ok r => ({ t2 with st := { t2.st with results := some r } }, .done why)
      | r => r

/-- `suggest_next_locations` (`bo.py:60-76`), drawing from the generator. -/
def seededSuggest (e : SeedBO S) (context : Option Context) (pending ignored : Option Mat) (t : SeedState S) :
    SeedState S × Py Mat :=
  let s1 := { t.st with params := none, numAcq := 0, context := context }
  match updateModel (e.envAt t.gen t.fitGens) s1 with
  | (s2, .error er) => ({ t with st := s2 }, .error er)
  | (s2, .ok ()) => (⟨s2, e.afterSuggest t.gen t.fitGens s2 pending ignored, e.gensAfter 0 t.gen t.fitGens⟩,
      (e.envAt t.gen t.fitGens).suggest s2 pending ignored)

end GPyOpt
