import Verif.Props.Constructor
import Verif.Props.Resume

/-!
# C158: it does not matter who evaluates the initial locations

The outputs at the initial locations come from the constructor (`BayesianOptimization`), from the start of the
run (`ModularBayesianOptimization` without outputs) or from the user.  The runs are the same, except that only
the start of the run keeps the evaluation times.
-/

namespace GPyOpt.Props

open GPyOpt Spec

variable {env : BOEnv} {obj : Nat → Vec → Py ℚ}

/-- A run that evaluates the initial locations `X` itself, and a run of an object that was created with outputs
found by the same calls of the objective: the same states, results and exceptions. -/
theorem C158_start (ho : env.obj = some obj) {X : Mat} {w : World} {ys ts : Vec} {cost : CostArg}
    (hc : (costModelInit cost).kind ≠ .evaluationTime)
    (he : evalFunc obj env.clock X { calls := [], ticks := 0 } = (w, .ok (ys, ts))) (ra : RunArgs) (fuel : Nat) :
    runOptimization env ra fuel (boInit X none cost)
      = runOptimization env ra fuel { boInit X (some ys) cost with world := w } := by
  unfold runOptimization
  simp only [ho]
  have : runStart env obj ra (boInit X none cost)
      = runStart env obj ra { boInit X (some ys) cost with world := w } := by
    unfold runStart
    simp only [boInit, he, hc, if_false]
  rw [this]

/-- The initial locations of `BayesianOptimization(...)`: those given, or a design. -/
def InitialLocations (a : BayesArgs) (sp : Space) (o : DesignOracle) (X : Mat) : Prop :=
  a.X = some X ∨ a.X = none ∧ initialDesign a.designType sp o a.numData = .ok X

/-- `BayesianOptimization(f, ...)` without outputs, and `ModularBayesianOptimization` with the same locations
and without outputs: every run is the same, state for state. -/
theorem C158_constructor {a : BayesArgs} {f : Nat → Vec → Py ℚ} (hf : a.f = some f) (hY : a.Y = none)
    {config : List Desc} {cs : Option (List ConstrDict)} {o : DesignOracle} {sp : Space}
    (hsp : designSpace config cs = .ok sp) {X : Mat} (hX : InitialLocations a sp o X)
    (ho : env.obj = some (signed a.maximize f)) :
    (∀ {w : World} {b : BayesObj},
      bayesConstruct a config cs o (sequentialEvaluate (signed a.maximize f) env.clock) = (w, .ok b) →
      b.sp = sp ∧ ∀ (ra : RunArgs) (fuel : Nat),
        runOptimization env ra fuel b.state = runOptimization env ra fuel (boInit X none .costModel)) ∧
    (∀ {w : World} {e : Err},
      evalFunc (signed a.maximize f) env.clock X { calls := [], ticks := 0 } = (w, .error e) →
      bayesConstruct a config cs o (sequentialEvaluate (signed a.maximize f) env.clock) = (w, .error e) ∧
      ∀ (ra : RunArgs) (fuel : Nat), ∃ s, runOptimization env ra fuel (boInit X none .costModel) = (s, .raised e) ∧
        s.world = w ∧ s.X = X ∧ s.Y = none) := by
  have hinit : ∀ ev : Mat → World → World × Py Vec, initDesignChooser a sp o ev { calls := [], ticks := 0 }
      = match ev X { calls := [], ticks := 0 } with
        | (w', .error e) => (w', .error e)
        | (w', .ok Y) => (w', .ok (X, Y)) := by
    intro ev
    unfold initDesignChooser
    rcases hX with hX | ⟨hX, hd⟩
    · simp only [hf, hX, hY]
      rcases ev X { calls := [], ticks := 0 } with ⟨w, e | Y⟩ <;> rfl
    · simp only [hf, hX, hY, hd]
      rcases ev X { calls := [], ticks := 0 } with ⟨w, e | Y⟩ <;> rfl
  constructor
  · intro w b hb
    unfold bayesConstruct at hb
    simp only [hsp, hinit] at hb
    rcases he : evalFunc (signed a.maximize f) env.clock X { calls := [], ticks := 0 } with ⟨w1, r⟩
    simp only [sequentialEvaluate, he] at hb
    cases r with
    | error e => simp [Except.map] at hb
    | ok p =>
      obtain ⟨ys, ts⟩ := p
      simp only [Except.map] at hb
      cases hm : chooseModelAcq a.modelType a.acqType none none with
      | error e => simp [hm] at hb
      | ok q =>
        obtain ⟨m, q⟩ := q
        simp only [hm] at hb
        cases hv : evaluatorCreator a.evaluatorType false a.batchSize a.modelType with
        | error e => simp [hv] at hb
        | ok ev =>
          simp only [hv, Prod.mk.injEq, Except.ok.injEq] at hb
          obtain ⟨rfl, rfl⟩ := hb
          exact ⟨rfl, fun ra fuel => (C158_start ho (by simp [costModelInit]) he ra fuel).symm⟩
  · intro w e he
    constructor
    · unfold bayesConstruct
      simp only [hsp, hinit, sequentialEvaluate, he, Except.map]
    · intro ra fuel
      refine ⟨{ boInit X none .costModel with context := ra.context, world := w }, ?_, rfl, rfl, rfl⟩
      unfold runOptimization
      simp only [ho]
      unfold runStart
      simp only [boInit, he]

/-- The user evaluates the initial locations and passes the outputs: the same locations, outputs and results,
for objectives that are functions of the location and components that use the data only. -/
theorem C158_user_partial (hd : GPyOpt.DataOnly env) {f : Vec → Py ℚ} (ho : env.obj = some fun _ x => f x) {X : Mat} {Y : Vec}
    (hY : mapE f X = .ok Y) {cost : CostArg} (hc : (costModelInit cost).kind ≠ .evaluationTime) (n : Nat) (eps : ℚ)
    (c : Option Context) (fuel : Nat) (why : Stop) :
    (∀ s, runOptimization env { maxIter := some (.fin n), eps := eps, context := c } fuel (boInit X none cost)
        = (s, .done why) →
      ∃ t, runOptimization env { maxIter := some (.fin n), eps := eps, context := c } fuel (boInit X (some Y) cost)
        = (t, .done why) ∧ t.X = s.X ∧ t.Y = s.Y ∧ t.results = s.results) ∧
    (∀ t, runOptimization env { maxIter := some (.fin n), eps := eps, context := c } fuel (boInit X (some Y) cost)
        = (t, .done why) →
      ∃ s, runOptimization env { maxIter := some (.fin n), eps := eps, context := c } fuel (boInit X none cost)
        = (s, .done why) ∧ s.X = t.X ∧ s.Y = t.Y ∧ s.results = t.results) := by
  have hev : ∀ (X : Mat) (Y : Vec) (w : World), mapE f X = .ok Y →
      ∃ w' ts, evalFunc (fun _ x => f x) env.clock X w = (w', .ok (Y, ts)) := by
    intro X
    induction X with
    | nil =>
      intro Y w h
      simp only [mapE, Except.ok.injEq] at h
      subst h
      exact ⟨w, [], rfl⟩
    | cons x X ih =>
      intro Y w h
      unfold mapE at h
      cases hx : f x with
      | error e => simp [hx] at h
      | ok y =>
        simp only [hx] at h
        cases hr : mapE f X with
        | error e => simp [hr] at h
        | ok Y' =>
          simp only [hr, Except.ok.injEq] at h
          subst h
          obtain ⟨w', ts, e⟩ := ih Y' { calls := w.calls ++ [(x, .ok y)], ticks := w.ticks + 2 } hr
          unfold evalFunc
          simp only [hx, e]
          exact ⟨_, _, rfl⟩
  obtain ⟨w, ts, he⟩ := hev X Y { calls := [], ticks := 0 } hY
  rw [C158_start ho hc he]
  exact ⟨fun s h => run_same hd ho (s := boInit X (some Y) cost) (t := { boInit X (some Y) cost with world := w })
      rfl rfl rfl hc hc h,
    fun t h => run_same hd ho (t := boInit X (some Y) cost) (s := { boInit X (some Y) cost with world := w })
      rfl rfl rfl hc hc h⟩

/-- Negation for models of the evaluation time, for all objectives and locations: only the start of the run keeps
the evaluation times of the initial locations; with outputs from the constructor or the user the cost model starts
without data. -/
theorem C158_times_counterexample {X : Mat} {w : World} {ys ts : Vec} (Y : Vec)
    (he : evalFunc obj env.clock X { calls := [], ticks := 0 } = (w, .ok (ys, ts))) (hfit : ∀ s, env.costFit s = .ok ())
    (ra : RunArgs) :
    (∃ s, runStart env obj ra (boInit X none (.str "evaluation_time")) = (s, .ok ()) ∧
      s.cost.data = some (X, ts.map env.lg)) ∧
    ∃ s, runStart env obj ra (boInit X (some Y) (.str "evaluation_time")) = (s, .ok ()) ∧ s.cost.data = none := by
  constructor
  · have hl : ∀ (X : Mat) (w w' : World) (ys ts : Vec), evalFunc obj env.clock X w = (w', .ok (ys, ts)) →
        X.length = ts.length := by
      intro X
      induction X with
      | nil => intro w w' ys ts h; simp [evalFunc] at h; simp [h]
      | cons x X ih =>
        intro w w' ys ts h
        unfold evalFunc at h
        cases hx : obj w.calls.length x with
        | error e => simp [hx] at h
        | ok y =>
          simp only [hx] at h
          rcases hr : evalFunc obj env.clock X { calls := w.calls ++ [(x, .ok y)], ticks := w.ticks + 2 } with ⟨w1, r⟩
          rw [hr] at h
          cases r with
          | error e => simp at h
          | ok p =>
            obtain ⟨ys', ts'⟩ := p
            simp only [Prod.mk.injEq, Except.ok.injEq] at h
            obtain ⟨-, -, rfl⟩ := h
            simp [ih _ _ _ _ hr]
    have hcol : ∀ ts : Vec, columnValues (ts.map fun t => [env.lg t]) = some (ts.map env.lg) := by
      intro ts
      induction ts with
      | nil => rfl
      | cons t ts ih => simp [columnValues, ih]
    unfold runStart
    simp only [boInit, he, costModelInit, if_true, CostModel.update, costColumn, hcol, hfit,
      List.length_map, hl X _ _ _ _ he]
    exact ⟨_, rfl, rfl⟩
  · exact ⟨_, rfl, rfl⟩

/-- The hypotheses are met: a design of two locations, the constructor and a run of one iteration. -/
example : ((designSpace exLine none).map fun sp =>
      let env := exFitted sp 1
      let obj : Nat → Vec → Py ℚ := signed false fun _ x => .ok ((x.headD 0 - 1 / 4) ^ 2)
      let b := bayesConstruct { f := some fun _ x => .ok ((x.headD 0 - 1 / 4) ^ 2), X := some [[0], [1]] } exLine none
        { draws := fun _ => { choice := fun _ _ => 0, unif := fun _ _ => 0, junk := fun _ _ => 0 }, sobol := fun _ _ => 0, lhs := fun _ _ => 0, fuel := 1 }
        (sequentialEvaluate obj env.clock)
      let m := runOptimization env { maxIter := some (.fin 1) } 10 (boInit [[0], [1]] none .costModel)
      (b.2.toOption.map fun b => (runOptimization env { maxIter := some (.fin 1) } 10 b.state).1.X, m.1.X, m.2))
    = .ok (some [[0], [1], [1 / 3]], [[0], [1], [1 / 3]], .done .limit) := by
  decide +kernel

end GPyOpt.Props
