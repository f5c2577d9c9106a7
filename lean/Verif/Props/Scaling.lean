import Verif.Lemmas.BO
import Verif.Props.Records
import Verif.Model.General
import Mathlib.Tactic.FieldSimp
import Mathlib.Tactic.Ring
import Mathlib.Tactic.Linarith
import Mathlib.Tactic.Positivity
import Mathlib.Algebra.BigOperators.Group.List.Basic
import Mathlib.Algebra.BigOperators.Ring.List

/-!
# C116: the unit of the objective does not matter

If outputs are normalized before they are given to the model (the default), an objective measured in
another unit, with another zero, gives the same run.
-/

namespace GPyOpt.Props

/-- The recorded calls with the outputs in another unit. -/
def World.scale (g : ℚ → ℚ) (w : World) : World :=
  { w with calls := w.calls.map fun c => (c.1, c.2.map g) }

/-- Results in another unit: the same location. -/
def Results.scale (g : ℚ → ℚ) (r : Results) : Results :=
  { yBest := r.yBest.map g, xOpt := r.xOpt, fxOpt := g r.fxOpt }

/-- The state of an object with the outputs in another unit: collected outputs, recorded calls and results. All other
attributes, in particular the data the model was fitted to, are the same. -/
def scaleState (g : ℚ → ℚ) (s : BOState) : BOState :=
  { s with Y := s.Y.map (List.map g), world := World.scale g s.world, results := s.results.map (Results.scale g) }

/-- The components see the outputs only through the model: they are the same for a state and for the state with
other outputs (but the same fits). The model gets the same outputs in both units. -/
structure UnitFree (g : ℚ → ℚ) (env : BOEnv) : Prop where
  fit : ∀ s, env.fit (scaleState g s) = env.fit s
  params : ∀ s, env.params (scaleState g s) = env.params s
  costFit : ∀ s, env.costFit (scaleState g s) = env.costFit s
  suggest : ∀ s, env.suggest (scaleState g s) = env.suggest s
  modelY : ∀ Y, env.modelY (Y.map g) = env.modelY Y

/-- The environment with the objective in another unit. -/
def scaleEnv (g : ℚ → ℚ) (env : BOEnv) : BOEnv :=
  { env with obj := env.obj.map fun f => fun k x => (f k x).map g }

variable {g : ℚ → ℚ} {env : BOEnv}

theorem scale_evalFunc (obj : Nat → Vec → Py ℚ) (clock : Nat → ℚ) (xs : Mat) (w : World) :
    evalFunc (fun k x => (obj k x).map g) clock xs (World.scale g w) =
      (World.scale g (evalFunc obj clock xs w).1, (evalFunc obj clock xs w).2.map fun p => (p.1.map g, p.2)) := by
  induction xs generalizing w with
  | nil => simp [evalFunc]
  | cons x xs ih =>
    unfold evalFunc
    have hl : (World.scale g w).calls.length = w.calls.length := by simp [World.scale]
    rw [hl]
    cases ho : obj w.calls.length x with
    | error e => simp [World.scale]
    | ok y =>
      simp only [Except_map_ok]
      have := ih { calls := w.calls ++ [(x, .ok y)], ticks := w.ticks + 2 }
      rw [show World.scale g { calls := w.calls ++ [(x, .ok y)], ticks := w.ticks + 2 } =
        { calls := (World.scale g w).calls ++ [(x, .ok (g y))], ticks := (World.scale g w).ticks + 2 } by
          simp [World.scale]] at this
      rw [this]
      rcases evalFunc obj clock xs { calls := w.calls ++ [(x, .ok y)], ticks := w.ticks + 2 } with ⟨w', r⟩
      cases r with
      | error e => rfl
      | ok p => rfl

theorem scale_saveParams (hu : UnitFree g env) (s : BOState) :
    saveParams (scaleEnv g env) (scaleState g s) =
      (scaleState g (saveParams env s).1, (saveParams env s).2) := by
  unfold saveParams
  show (match env.params (scaleState g s) with | .error e => _ | .ok p => _) = _
  rw [hu.params]
  cases env.params s with
  | error e => rfl
  | ok p =>
    show (match s.params with | none => _ | some ps => _) = _
    cases s.params <;> rfl

theorem scale_updateModel (hu : UnitFree g env) (s : BOState) :
    updateModel (scaleEnv g env) (scaleState g s) =
      (scaleState g (updateModel env s).1, (updateModel env s).2) := by
  unfold updateModel
  show (if env.interval = 0 then _ else if (s.numAcq : Int) % env.interval = 0 then
    (match env.sp.unzipInputs s.X with | .error e => _ | .ok Xm => _) else _) = _
  split_ifs
  · rfl
  · cases env.sp.unzipInputs s.X with
    | error e => rfl
    | ok Xm =>
      show (match s.Y.map (List.map g) with | none => _ | some Y => _) = _
      cases hY : s.Y with
      | none => rfl
      | some Y =>
        simp only [Option.map_some]
        show (match env.fit (scaleState g s) Xm (env.modelY (Y.map g)) with | .error e => _ | .ok () => _) = _
        rw [hu.fit, hu.modelY]
        cases env.fit s Xm (env.modelY Y) with
        | error e =>
          show (({ scaleState g s with fits := s.fits ++ [{ acq := s.numAcq, X := Xm, Y := env.modelY (Y.map g) }] },
            Except.error e) : BOState × Py Unit) = _
          rw [hu.modelY]
          simp [scaleState, hY]
        | ok u =>
          show saveParams (scaleEnv g env)
            { scaleState g s with fits := s.fits ++ [{ acq := s.numAcq, X := Xm, Y := env.modelY (Y.map g) }] } = _
          rw [hu.modelY]
          have := scale_saveParams hu
            { s with fits := s.fits ++ [{ acq := s.numAcq, X := Xm, Y := env.modelY Y }] }
          simp only [hY] at this
          rw [← this]
          simp [scaleState, hY]
  · exact scale_saveParams hu s

theorem scale_evaluateObjective (hu : UnitFree g env) (obj : Nat → Vec → Py ℚ) (s : BOState) (m : Mat) :
    evaluateObjective (scaleEnv g env) (fun k x => (obj k x).map g) (scaleState g s) m =
      (scaleState g (evaluateObjective env obj s m).1, (evaluateObjective env obj s m).2) := by
  unfold evaluateObjective
  show (match evalFunc (fun k x => (obj k x).map g) env.clock m (World.scale g s.world) with
    | (w, .error e) => _ | (w, .ok (ys, ts)) => _) = _
  rw [scale_evalFunc]
  rcases evalFunc obj env.clock m s.world with ⟨w, r⟩
  cases r with
  | error e => rfl
  | ok p =>
    obtain ⟨ys, ts⟩ := p
    show (match s.cost.update env.lg (env.costFit (scaleState g s)) m (.list ts) with
      | (c, .error e) => _ | (c, .ok ()) => _) = _
    rw [hu.costFit]
    simp only
    rcases s.cost.update env.lg (env.costFit s) m (.list ts) with ⟨c, r⟩
    cases r with
    | error e => rfl
    | ok u =>
      show (match s.Y.map (List.map g) with | none => _ | some Y => _) = _
      cases hY : s.Y with
      | none => simp [scaleState, hY]
      | some Y => simp [scaleState]

/-- A round in another unit. -/
def scaleRound (g : ℚ → ℚ) : Round → Round
  | .next s => .next (scaleState g s)
  | .stop s why => .stop (scaleState g s) why
  | .raised s e => .raised (scaleState g s) e

theorem scale_boRound (hu : UnitFree g env) (obj : Nat → Vec → Py ℚ) (mi mt : Limit) (eps : ℚ) (s : BOState) :
    boRound (scaleEnv g env) (fun k x => (obj k x).map g) mi mt eps (scaleState g s) =
      scaleRound g (boRound env obj mi mt eps s) := by
  unfold boRound
  show (if mt.exceeds s.cumTime = true then _ else _) = _
  rw [scale_updateModel hu]
  split_ifs with ht
  · rcases updateModel env s with ⟨s1, r⟩
    cases r with
    | error e => cases e <;> rfl
    | ok u =>
      show (if ¬ mi.exceeds (s1.numAcq : ℚ) = true ∨ lastTwoClose eps s1.X = true then _ else
        match env.suggest (scaleState g s1) none none with | .error e => _ | .ok m => _) = _
      rw [hu.suggest]
      simp only
      split_ifs
      · rfl
      · cases env.suggest s1 none none with
        | error e => rfl
        | ok m =>
          show (match evaluateObjective (scaleEnv g env) (fun k x => (obj k x).map g)
            (scaleState g { s1 with X := s1.X ++ m }) m with | (s2, .error e) => _ | (s2, .ok ()) => _) = _
          rw [scale_evaluateObjective hu]
          simp only
          rcases evaluateObjective env obj { s1 with X := s1.X ++ m } m with ⟨s2, r⟩
          cases r <;> rfl
  · rfl

theorem scale_boLoop (hu : UnitFree g env) (obj : Nat → Vec → Py ℚ) (mi mt : Limit) (eps : ℚ) (fuel : Nat)
    (s : BOState) :
    boLoop (scaleEnv g env) (fun k x => (obj k x).map g) mi mt eps fuel (scaleState g s) =
      (scaleState g (boLoop env obj mi mt eps fuel s).1, (boLoop env obj mi mt eps fuel s).2) := by
  induction fuel generalizing s with
  | zero => rfl
  | succ fuel ih =>
    unfold boLoop
    rw [scale_boRound hu]
    cases boRound env obj mi mt eps s with
    | stop s' why => rfl
    | raised s' e => rfl
    | next s' => exact ih s'

theorem scale_runStart (hu : UnitFree g env) (obj : Nat → Vec → Py ℚ) (a : RunArgs) (s : BOState) :
    runStart (scaleEnv g env) (fun k x => (obj k x).map g) a (scaleState g s) =
      (scaleState g (runStart env obj a s).1, (runStart env obj a s).2) := by
  unfold runStart
  show (match s.Y.map (List.map g) with | some _ => _ | none => _) = _
  cases hY : s.Y with
  | some Y => simp [scaleState, World.scale, scaleEnv, hY]
  | none =>
    simp only [Option.map_none]
    show (match evalFunc (fun k x => (obj k x).map g) env.clock s.X (World.scale g s.world) with
      | (w, .error e) => _ | (w, .ok (ys, ts)) => _) = _
    rw [scale_evalFunc]
    rcases evalFunc obj env.clock s.X s.world with ⟨w, r⟩
    cases r with
    | error e => simp [scaleState, hY]
    | ok p =>
      obtain ⟨ys, ts⟩ := p
      show (if s.cost.kind = .evaluationTime then
        match s.cost.update env.lg (env.costFit (scaleState g
          { s with params := none, context := a.context, world := w, Y := some ys })) s.X (.list ts) with
        | (c, .error e) => _ | (c, .ok ()) => _ else _) = _
      rw [hu.costFit]
      simp only
      split_ifs
      · rcases s.cost.update env.lg (env.costFit
          { s with params := none, context := a.context, world := w, Y := some ys }) s.X (.list ts) with ⟨c, r⟩
        cases r <;> rfl
      · rfl

theorem scale_argminFrom (hg : StrictMono g) (ys : Vec) (pos best : Nat) (v : ℚ) :
    argminFrom (ys.map g) pos best (g v) = argminFrom ys pos best v := by
  induction ys generalizing pos best v with
  | nil => rfl
  | cons y ys ih =>
    rw [List.map_cons]
    unfold argminFrom
    rw [ih, ih]
    by_cases h : y < v
    · rw [if_pos h, if_pos (hg.lt_iff_lt.2 h)]
    · rw [if_neg h, if_neg (fun h' => h (hg.lt_iff_lt.1 h'))]

theorem scale_argmin (hg : StrictMono g) (Y : Vec) : argmin (Y.map g) = argmin Y := by
  cases Y with
  | nil => rfl
  | cons y ys => exact congrArg Except.ok (scale_argminFrom hg ys 1 0 y)

theorem scale_foldlMin (hg : StrictMono g) (ys : Vec) (v : ℚ) :
    (ys.map g).foldl min (g v) = g (ys.foldl min v) := by
  induction ys generalizing v with
  | nil => rfl
  | cons y ys ih => rw [List.map_cons, List.foldl_cons, List.foldl_cons, ← hg.monotone.map_min, ih]

theorem scale_bestValue (hg : StrictMono g) (Y : Vec) : bestValue (Y.map g) = (bestValue Y).map g := by
  unfold bestValue
  rw [List.length_map, List.map_map]
  apply List.map_congr_left
  intro i hi
  rw [List.mem_range] at hi
  simp only [Function.comp]
  rw [← List.map_take]
  cases Y with
  | nil => simp at hi
  | cons y ys =>
    simp only [List.take_succ_cons, List.map_cons, List.headD_cons, List.foldl_cons]
    rw [← hg.monotone.map_min, scale_foldlMin hg]

theorem scale_computeResults (hg : StrictMono g) (X : Mat) (Y : Vec) :
    computeResults X (Y.map g) = (computeResults X Y).map (Results.scale g) := by
  unfold computeResults
  rw [scale_argmin hg]
  cases argmin Y with
  | error e => rfl
  | ok i =>
    simp only
    cases npGet X i with
    | error e => rfl
    | ok x =>
      simp only
      rw [show npGet (Y.map g) i = (npGet Y i).map g by
        unfold npGet
        rw [List.getElem?_map]
        cases Y[i]? <;> rfl]
      cases npGet Y i with
      | error e => rfl
      | ok y => simp [Results.scale, scale_bestValue hg]

/-- C116. If the components see the outputs only through the model, and the model gets the same (normalized) outputs
in both units, then a run with the objective in another unit is the run with the objective, with all outputs in the
other unit: it ends in the same way after the same calls, collects the same locations, fits the same models, and reports the
same optimum. -/
theorem C116_scaled_run (hg : StrictMono g) (hu : UnitFree g env) (a : RunArgs) (fuel : Nat) (s : BOState) :
    runOptimization (scaleEnv g env) a fuel (scaleState g s) =
      (scaleState g (runOptimization env a fuel s).1, (runOptimization env a fuel s).2) := by
  unfold runOptimization
  show (match env.obj.map fun f => fun k x => (f k x).map g with | none => _ | some obj => _) = _
  cases env.obj with
  | none => rfl
  | some obj =>
    simp only [Option.map_some]
    rw [scale_runStart hu]
    rcases runStart env obj a s with ⟨s1, r⟩
    cases r with
    | error e => rfl
    | ok u =>
      simp only
      rw [scale_boLoop hu]
      rcases boLoop env obj a.limits.1 a.limits.2 a.eps fuel s1 with ⟨s2, r⟩
      cases r with
      | raised e => rfl
      | running => rfl
      | done why =>
        show (match s2.Y.map (List.map g) with | none => _ | some Y => _) = _
        cases hY : s2.Y with
        | none => simp [hY]
        | some Y =>
          simp only [Option.map_some]
          show (match computeResults s2.X (Y.map g) with | .error e => _ | .ok r => _) = _
          rw [scale_computeResults hg]
          cases hc : computeResults s2.X Y with
          | error e => simp [hY, hc]
          | ok r => simp [scaleState, hY, hc]

/-- C116. Suggestions do not depend on the unit either. -/
theorem C116_scaled_suggestion (hu : UnitFree g env) (context : Option Context) (pending ignored : Option Mat)
    (s : BOState) :
    (suggestNext (scaleEnv g env) context pending ignored (scaleState g s)).2 =
      (suggestNext env context pending ignored s).2 := by
  unfold suggestNext
  have := scale_updateModel hu { s with params := none, numAcq := 0, context := context }
  rw [show scaleState g { s with params := none, numAcq := 0, context := context } =
    { scaleState g s with params := none, numAcq := 0, context := context } from rfl] at this
  simp only
  rw [this]
  rcases updateModel env { s with params := none, numAcq := 0, context := context } with ⟨s2, r⟩
  cases r with
  | error e => rfl
  | ok u => exact congrFun (congrFun (hu.suggest s2) pending) ignored

/-- C116, read off for a completed run with the outputs `a * y + b`, `a > 0`: the same locations in the same order,
outputs in the new unit, the same `x_opt`, and `fx_opt` in the new unit. -/
theorem C116_affine_run {a b : ℚ} (ha : 0 < a) (hu : UnitFree (fun y => a * y + b) env) (args : RunArgs) (fuel : Nat)
    (X0 : Mat) (Y0 : Option Vec) (cost : CostArg) (why : Stop) (s : BOState)
    (h : runOptimization env args fuel (boInit X0 Y0 cost) = (s, .done why)) :
    ∃ s', runOptimization (scaleEnv (fun y => a * y + b) env) args fuel
        (boInit X0 (Y0.map (List.map fun y => a * y + b)) cost) = (s', .done why) ∧
      s'.X = s.X ∧ s'.Y = s.Y.map (List.map fun y => a * y + b) ∧ s'.fits = s.fits ∧
      s'.results.map Results.xOpt = s.results.map Results.xOpt ∧
      s'.results.map Results.fxOpt = s.results.map fun r => a * r.fxOpt + b := by
  have hg : StrictMono fun y : ℚ => a * y + b := fun x y hxy => by
    have := mul_lt_mul_of_pos_left hxy ha
    simp only
    linarith
  have := C116_scaled_run hg hu args fuel (boInit X0 Y0 cost)
  rw [h] at this
  refine ⟨scaleState (fun y => a * y + b) s, this, rfl, rfl, rfl, ?_, ?_⟩
  · simp only [scaleState, Option.map_map]
    rfl
  · simp only [scaleState, Option.map_map]
    rfl

theorem sum_affine (a b : ℝ) (Y : List ℝ) : (Y.map fun y => a * y + b).sum = a * Y.sum + b * Y.length := by
  induction Y with
  | nil => simp
  | cons y Y ih =>
    rw [List.map_cons, List.sum_cons, List.sum_cons, ih, List.length_cons]
    push_cast
    ring

theorem meanR_affine (a b : ℝ) {Y : List ℝ} (h : Y ≠ []) : meanR (Y.map fun y => a * y + b) = a * meanR Y + b := by
  have : (Y.length : ℝ) ≠ 0 := by
    have := List.length_pos_iff.2 h
    positivity
  unfold meanR
  rw [sum_affine, List.length_map]
  field_simp

theorem stdR_affine {a : ℝ} (ha : 0 < a) (b : ℝ) {Y : List ℝ} (h : Y ≠ []) :
    stdR (Y.map fun y => a * y + b) = a * stdR Y := by
  unfold stdR
  rw [List.length_map, List.map_map, meanR_affine a b h]
  have e : (Y.map ((fun y => (y - (a * meanR Y + b)) ^ 2) ∘ fun y => a * y + b)) =
      Y.map fun y => a ^ 2 * (y - meanR Y) ^ 2 := by
    apply List.map_congr_left
    intro y _
    simp only [Function.comp]
    ring
  rw [e, List.sum_map_mul_left, mul_div_assoc, Real.sqrt_mul (sq_nonneg a), Real.sqrt_sq ha.le]

/-- C116. The normalization of the library gives the model the same outputs in every unit: for every array that it
accepts, with the same result or the same exception. -/
theorem C116_normalize_affine {a : ℝ} (ha : 0 < a) (b : ℝ) (shape : List Nat) (Y : List ℝ) :
    normalize shape (Y.map fun y => a * y + b) "stats" = normalize shape Y "stats" := by
  unfold normalize
  by_cases hY : Y = []
  · subst hY
    simp
  rw [meanR_affine a b hY, stdR_affine ha b hY]
  simp only [List.map_eq_nil_iff, List.map_map, if_true]
  have hpos : 0 < a * stdR Y ↔ 0 < stdR Y := by
    constructor
    · intro h; exact (pos_iff_pos_of_mul_pos h).1 ha
    · intro h; exact mul_pos ha h
  simp only [hpos]
  split_ifs with h1 h2 h3
  · rfl
  · rfl
  · congr 1
    apply List.map_congr_left
    intro y _
    simp only [Function.comp]
    rw [show a * y + b - (a * meanR Y + b) = a * (y - meanR Y) by ring, mul_div_mul_left _ _ ha.ne']
  · have h0 : stdR Y = 0 := le_antisymm (not_lt.1 h3) (Real.sqrt_nonneg _)
    have hsum : ∀ y ∈ Y, (y - meanR Y) ^ 2 = 0 := by
      unfold stdR at h0
      have hn : (0 : ℝ) < Y.length := by
        have := List.length_pos_iff.2 hY
        positivity
      have hnn : ∀ t ∈ Y.map (fun y => (y - meanR Y) ^ 2), 0 ≤ t := by
        intro t ht
        obtain ⟨y, _, rfl⟩ := List.mem_map.1 ht
        exact sq_nonneg _
      have hs0 : (Y.map fun y => (y - meanR Y) ^ 2).sum = 0 := by
        have hnn' := List.sum_nonneg hnn
        rw [Real.sqrt_eq_zero (div_nonneg hnn' hn.le), div_eq_zero_iff] at h0
        exact h0.resolve_right hn.ne'
      intro y hy
      exact le_antisymm (hs0 ▸ List.single_le_sum hnn _ (List.mem_map_of_mem hy)) (sq_nonneg _)
    congr 1
    apply List.map_congr_left
    intro y hy
    simp only [Function.comp]
    have := pow_eq_zero_iff (two_ne_zero) |>.1 (hsum y hy)
    rw [show a * y + b - (a * meanR Y + b) = a * (y - meanR Y) by ring, this, mul_zero]

/-! ## A concrete case -/

/-- Scaling to `[0, 1]`, a normalization in rational numbers. -/
def exRange (Y : Vec) : Vec :=
  Y.map fun y => (y - Y.foldl min (Y.headD 0)) / (Y.foldl max (Y.headD 0) - Y.foldl min (Y.headD 0))

/-- The suggestion depends on the outputs the model was fitted to. -/
def exUnit (sp : Space) (normalizeY : Bool) : BOEnv :=
  { exBO sp with
    suggest := fun s _ _ => .ok [[(s.fits.getLast?.map fun f : Fit => f.Y.sum / (f.Y.length + 1)).getD 0]]
    normalizeY := normalizeY
    normalize := exRange
    interval := 1 }

theorem scale_foldlMax (hg : StrictMono g) (ys : Vec) (v : ℚ) :
    (ys.map g).foldl max (g v) = g (ys.foldl max v) := by
  induction ys generalizing v with
  | nil => rfl
  | cons y ys ih => rw [List.map_cons, List.foldl_cons, List.foldl_cons, ← hg.monotone.map_max, ih]

theorem exRange_affine {a b : ℚ} (ha : 0 < a) (Y : Vec) : exRange (Y.map fun y => a * y + b) = exRange Y := by
  have hg : StrictMono fun y : ℚ => a * y + b := fun x y hxy => by
    have := mul_lt_mul_of_pos_left hxy ha
    simp only
    linarith
  cases Y with
  | nil => rfl
  | cons y ys =>
    unfold exRange
    rw [show ((y :: ys).map fun y => a * y + b).headD 0 = a * ((y :: ys).headD 0) + b from rfl,
      scale_foldlMin hg, scale_foldlMax hg, List.map_map]
    apply List.map_congr_left
    intro z _
    simp only [Function.comp]
    generalize (y :: ys).foldl min ((y :: ys).headD 0) = lo
    generalize (y :: ys).foldl max ((y :: ys).headD 0) = hi
    rw [show a * z + b - (a * lo + b) = a * (z - lo) by ring, show a * hi + b - (a * lo + b) = a * (hi - lo) by ring,
      mul_div_mul_left _ _ ha.ne']

/-- The hypothesis of `C116_affine_run` is met for every unit. -/
example (sp : Space) {a b : ℚ} (ha : 0 < a) : UnitFree (fun y => a * y + b) (exUnit sp true) where
  fit := fun _ => rfl
  params := fun _ => rfl
  costFit := fun _ => rfl
  suggest := fun _ => rfl
  modelY := exRange_affine ha

/-- A run of three iterations, and the same run in another unit. -/
example : ((designSpace exLine none).map fun sp =>
      let r := runOptimization (exUnit sp true) { maxIter := some (.fin 3) } 10 (boInit [[0], [1]] none .none)
      let r' := runOptimization (scaleEnv (fun y => 5 * y - 7) (exUnit sp true)) { maxIter := some (.fin 3) } 10
        (boInit [[0], [1]] none .none)
      (r.2, r.1.X, r'.2, r'.1.X)) =
    .ok (.done .limit, [[0], [1], [1/3], [11/40], [9073/40455]], .done .limit,
      [[0], [1], [1/3], [11/40], [9073/40455]]) := by decide +kernel

/-- C116: the normalization is needed. The same components with `normalize_Y=False` are sent elsewhere by another
unit. -/
theorem C116_unnormalized_counterexample :
    ((designSpace exLine none).map fun sp =>
      let r := runOptimization (exUnit sp false) { maxIter := some (.fin 1) } 10 (boInit [[0], [1]] none .none)
      let r' := runOptimization (scaleEnv (fun y => 2 * y) (exUnit sp false)) { maxIter := some (.fin 1) } 10
        (boInit [[0], [1]] none .none)
      (r.2, r.1.X, r'.2, r'.1.X)) =
    .ok (.done .limit, [[0], [1], [5/24]], .done .limit, [[0], [1], [5/12]]) := by decide +kernel

end GPyOpt.Props
