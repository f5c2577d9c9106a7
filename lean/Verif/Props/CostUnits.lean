import Verif.Props.Scaling
import Verif.Props.Constraints
import Verif.Model.CostGP
import Verif.Model.LocalPenalization
import Verif.Lemmas.Mills
import Mathlib.Analysis.Complex.Exponential

/-!
# C162: the unit of the costs does not matter

If all costs given by the user are multiplied by the same positive number, all values of the acquisition are divided by
it. What is suggested depends on the order of these values only, so that the suggestions are the same, provided that the
local optimizer itself only compares values.
-/

namespace GPyOpt.Props

open GPyOpt Spec

/-- A sorting routine and a local optimizer that only compare values: a strictly increasing transformation `φ` of the
values changes neither the order nor the locations that are returned. -/
structure OrderOnly (φ : ℚ → ℚ) (o : AcqOracle) : Prop where
  argsort : ∀ l : List ℚ, o.argsort (l.map φ) = o.argsort l
  opt : ∀ (k : Nat) (g : Vec → Py ℚ) (x : Vec), o.opt k (fun y => (g y).map φ) x = o.opt k g x

variable {φ : ℚ → ℚ}

theorem order_fNoContext (ctx : Option Ctx) (sp : Space) (f : Vec → Py ℚ) :
    fNoContext ctx sp (fun x => (f x).map φ) = fun y => (fNoContext ctx sp f y).map φ := by
  funext y
  unfold fNoContext
  cases ctx with
  | none => rfl
  | some c =>
    simp only
    cases c.expandVector sp y <;> rfl

theorem order_applyOptimizer (sp : Space) (ctx : Option Ctx) (dup : Option DupMgr) (opt : (Vec → Py ℚ) → Vec → Py Vec)
    (hopt : ∀ g x, opt (fun y => (g y).map φ) x = opt g x) (f : Vec → Py ℚ) (x0 : Vec) :
    applyOptimizer sp ctx dup opt (fun x => (f x).map φ) x0 =
      (applyOptimizer sp ctx dup opt f x0).map fun r => (r.1, φ r.2) := by
  unfold applyOptimizer
  rw [order_fNoContext]
  cases x0NoContext ctx x0 with
  | error e => rfl
  | ok xs =>
    simp only [hopt]
    cases isDup dup sp x0 with
    | error e => rfl
    | ok b =>
      cases b with
      | true => rfl
      | false =>
        simp only
        cases opt (fNoContext ctx sp f) xs with
        | error e => rfl
        | ok y =>
          simp only
          cases addContext ctx sp y with
          | error e => rfl
          | ok yc =>
            simp only
            cases sp.roundOptimum2d [yc] with
            | error e => rfl
            | ok m =>
              match m with
              | [] => rfl
              | _ :: _ :: _ => rfl
              | [r] =>
                simp only
                cases isDup dup sp r with
                | error e => rfl
                | ok b =>
                  cases b with
                  | true =>
                    simp only
                    cases f x0 <;> rfl
                  | false =>
                    simp only
                    cases f r <;> rfl

theorem mapE_map {α β γ : Type} (f : α → Py β) (g : β → γ) (l : List α) :
    mapE (fun x => (f x).map g) l = (mapE f l).map (List.map g) := by
  induction l with
  | nil => rfl
  | cons x xs ih =>
    unfold mapE
    rw [ih]
    cases f x with
    | error e => rfl
    | ok y => cases mapE f xs <;> rfl

theorem order_anchorPoints (sp : Space) (ctx : Option Ctx) (dup : Option DupMgr) (unique : Bool) (design : String)
    (n k : Nat) (d : DesignOracle) (argsort : List ℚ → List Nat) (ha : ∀ l : List ℚ, argsort (l.map φ) = argsort l)
    (f : Vec → Py ℚ) :
    anchorPoints sp ctx dup unique design n k d (objectiveScores fun x => (f x).map φ) argsort =
      anchorPoints sp ctx dup unique design n k d (objectiveScores f) argsort := by
  have hs : ∀ X, objectiveScores (fun x => (f x).map φ) X = (objectiveScores f X).map (List.map φ) := fun X => mapE_map f φ X
  unfold anchorPoints
  split
  · rfl
  · split
    · rfl
    · simp only
      split
      · rfl
      · rw [hs]
        cases objectiveScores f _ with
        | error e => rfl
        | ok s =>
          simp only [Except_map_ok]
          rw [ha, List.length_map]

theorem order_acqAnchors {o : AcqOracle} (ho : OrderOnly φ o) (sp : Space) (ctx : Ctx) (dup : Option DupMgr) (op : AcqOptions)
    (f : Vec → Py ℚ) : acqAnchors sp ctx dup op o (fun x => (f x).map φ) = acqAnchors sp ctx dup op o f := by
  unfold acqAnchors
  rw [order_anchorPoints _ _ _ _ _ _ _ _ _ ho.argsort]

theorem order_npGet {α β : Type} (g : α → β) (l : List α) (i : Nat) : npGet (l.map g) i = (npGet l i).map g := by
  unfold npGet
  rw [List.getElem?_map]
  cases l[i]? <;> rfl

theorem order_acqOptimize (hφ : StrictMono φ) {o : AcqOracle} (ho : OrderOnly φ o) (sp : Space) (ctx : Ctx)
    (dup : Option DupMgr) (op : AcqOptions) (f : Vec → Py ℚ) :
    acqOptimize sp ctx dup op o (fun x => (f x).map φ) =
      (acqOptimize sp ctx dup op o f).map fun r => (r.1, φ r.2) := by
  unfold acqOptimize
  rw [order_acqAnchors ho]
  cases chooseOptimizer op.optimizerName with
  | error e => rfl
  | ok u =>
    simp only
    cases acqAnchors sp ctx dup op o f with
    | error e => rfl
    | ok as =>
      simp only
      have hp : optimizedPoints sp (some ctx) dup o.opt (fun x => (f x).map φ) as =
          (optimizedPoints sp (some ctx) dup o.opt f as).map (List.map fun r => (r.1, φ r.2)) := by
        unfold optimizedPoints
        rw [← mapE_map]
        congr 1
        funext ka
        exact order_applyOptimizer _ _ _ _ (ho.opt ka.2) _ _
      rw [hp]
      cases optimizedPoints sp (some ctx) dup o.opt f as with
      | error e => rfl
      | ok pts =>
        simp only [Except_map_ok]
        have : (pts.map fun r : Vec × ℚ => (r.1, φ r.2)).map Prod.snd = (pts.map Prod.snd).map φ := by
          rw [List.map_map, List.map_map]
          rfl
        rw [this, scale_argmin hφ]
        cases argmin (pts.map Prod.snd) with
        | error e => rfl
        | ok i => exact order_npGet _ _ _

/-- Two acquisitions that order the locations in the same way: the values of the one are the values of the other under
a strictly increasing function, and likewise (perhaps with another function) the values of the penalized acquisitions. All
routines that are used only compare values. Everything else is the same. -/
structure SameOrder (φ ψ : ℚ → ℚ) (env env' : EvalEnv) : Prop where
  mono : StrictMono φ
  monoLP : StrictMono ψ
  eq : env' = { env with f := fun x => (env.f x).map φ, fLP := fun s x => (env.fLP s x).map ψ }
  acq : OrderOnly φ env.oracle.acq
  batch : OrderOnly φ env.oracle.batch
  acqLP : ∀ k, OrderOnly ψ (env.acqLP k)

variable {ψ : ℚ → ℚ} {env env' : EvalEnv}

theorem order_computeBatch (h : SameOrder φ ψ env env') (ev : Evaluator) (sp : Space) (ctx : Ctx) (dup : Option DupMgr) :
    computeBatch ev env' sp ctx dup = computeBatch ev env sp ctx dup := by
  obtain ⟨h1, h2, rfl, h3, h4, h5⟩ := h
  cases ev with
  | sequential =>
    unfold computeBatch sequentialBatch
    simp only
    rw [order_acqOptimize h1 h3]
    cases acqOptimize sp ctx dup env.op env.oracle.acq env.f <;> rfl
  | random n =>
    unfold computeBatch randomBatch
    simp only
    cases dup with
    | none =>
      simp only
      rw [order_acqOptimize h1 h3]
      cases acqOptimize sp ctx none env.op env.oracle.acq env.f <;> rfl
    | some dm =>
      simp only
      rw [order_acqOptimize h1 h3]
      cases acqOptimize sp ctx (some dm) env.op env.oracle.acq env.f <;> rfl
  | thompson n =>
    have ht : ∀ (dup : Option DupMgr), thompsonOptimize sp ctx dup env.oracle.batch (fun x => (env.f x).map φ) =
        thompsonOptimize sp ctx dup env.oracle.batch env.f := by
      intro dup
      funext k a
      unfold thompsonOptimize
      rw [order_applyOptimizer _ _ _ _ (h4.opt k)]
      cases applyOptimizer sp (some ctx) dup (env.oracle.batch.opt k) env.f a <;> rfl
    unfold computeBatch thompsonBatch
    simp only [ht]
  | localPenalization n =>
    have hl : (fun (k : Nat) (s : LPState) =>
          (acqOptimize sp ctx none env.op (env.acqLP k) (fun x => (env.fLP s x).map ψ)).map Prod.fst) =
        fun k s => (acqOptimize sp ctx none env.op (env.acqLP k) (env.fLP s)).map Prod.fst := by
      funext k s
      rw [order_acqOptimize h2 (h5 k)]
      cases acqOptimize sp ctx none env.op (env.acqLP k) (env.fLP s) <;> rfl
    unfold computeBatch
    simp only
    rw [hl]

/-- C162. Two acquisitions that order the locations in the same way give the same suggestions (or the same exception),
with every evaluator, context, and set of locations to avoid. -/
theorem C162_order_only (h : SameOrder φ ψ env env') (ev : Evaluator) (sp : Space) (context : Option Context)
    (deDup : Bool) (X : Mat) (pending ignored : Option Mat) :
    computeNext ev env' sp context deDup X pending ignored = computeNext ev env sp context deDup X pending ignored := by
  unfold computeNext
  cases contextManager sp context with
  | error e => rfl
  | ok ctx => simp only [order_computeBatch h]

/-- The acquisition with all costs multiplied by `k`. -/
theorem acquisitionFunction_costs (sp : Space) (acq cost : Vec → Py ℚ) {k : ℚ} (hk : k ≠ 0) (x : Vec) :
    acquisitionFunction sp acq (fun x => (cost x).map (k * ·)) x = (acquisitionFunction sp acq cost x).map (· / k) := by
  unfold acquisitionFunction
  cases acq x with
  | error e => rfl
  | ok a =>
    simp only
    cases cost x with
    | error e => rfl
    | ok c =>
      simp only [Except_map_ok]
      cases constraintRows sp x with
      | error e => rfl
      | ok xz =>
        simp only
        cases sp.indicatorConstraints xz with
        | error e => rfl
        | ok ws =>
          match ws with
          | [] => rfl
          | _ :: _ :: _ => rfl
          | [w] =>
            simp only [mul_eq_zero, hk, false_or]
            split
            · rfl
            · rename_i hc
              simp only [Except_map_ok]
              congr 1
              field_simp

/-- C162. The costs given by the user, multiplied by any positive number, give the same suggestions: the sequential
evaluator and the batches of random and of Thompson sampling, for optimizers that only compare values. -/
theorem C162_proportional_costs_partial (sp : Space) (acq cost : Vec → Py ℚ) {k : ℚ} (hk : 0 < k) (env : EvalEnv)
    (hf : env.f = acquisitionFunction sp acq cost) (h1 : OrderOnly (· / k) env.oracle.acq)
    (h2 : OrderOnly (· / k) env.oracle.batch) (ev : Evaluator) (hev : ∀ n, ev ≠ .localPenalization n)
    (context : Option Context) (deDup : Bool) (X : Mat) (pending ignored : Option Mat) :
    computeNext ev { env with f := acquisitionFunction sp acq fun x => (cost x).map (k * ·) } sp context deDup X pending
      ignored = computeNext ev env sp context deDup X pending ignored := by
  have hm : StrictMono fun v : ℚ => v / k := fun a b hab => div_lt_div_of_pos_right hab hk
  have e : (acquisitionFunction sp acq fun x => (cost x).map (k * ·)) = fun x => (env.f x).map (· / k) := by
    funext x
    rw [hf, acquisitionFunction_costs sp acq cost hk.ne']
  unfold computeNext
  cases contextManager sp context with
  | error e => rfl
  | ok ctx =>
    simp only
    have hb : ∀ dup, computeBatch ev { env with f := acquisitionFunction sp acq fun x => (cost x).map (k * ·) } sp ctx dup =
        computeBatch ev env sp ctx dup := by
      intro dup
      rw [e]
      -- the oracles of local penalization play no role
      let env0 : EvalEnv := { env with acqLP := fun _ => env.oracle.acq }
      have h0 : SameOrder (· / k) (· / k) env0
          { env0 with f := fun x => (env0.f x).map (· / k), fLP := fun s x => (env0.fLP s x).map (· / k) } :=
        ⟨hm, hm, rfl, h1, h2, fun _ => h1⟩
      have := order_computeBatch h0 ev sp ctx dup
      cases ev with
      | sequential => exact this
      | random n => exact this
      | thompson n => exact this
      | localPenalization n => exact absurd rfl (hev n)
    rw [hb]

/-- C162. A whole run is the same: an object whose acquisition at every moment orders the locations in the same way
collects the same data, makes the same calls, and ends in the same way. -/
theorem C162_same_run (sp : Space) (ev : Evaluator) (envs envs' : BOState → EvalEnv) (deDup : Bool) (env : BOEnv)
    (h : ∀ s, ∃ φ ψ : ℚ → ℚ, SameOrder φ ψ (envs s) (envs' s)) (a : RunArgs) (fuel : Nat) (s : BOState) :
    runOptimization { env with suggest := stdSuggest sp ev envs' deDup } a fuel s =
      runOptimization { env with suggest := stdSuggest sp ev envs deDup } a fuel s := by
  have : stdSuggest sp ev envs' deDup = stdSuggest sp ev envs deDup := by
    funext s p i
    obtain ⟨φ, ψ, h⟩ := h s
    exact C162_order_only h ev sp _ _ _ _ _
  rw [this]

/-! ### Where the unit matters -/

/-- C162 (negation, other changes of the costs). A fixed cost that is added everywhere changes the suggestion: with
the costs `1` and `4` and the acquisitions `1` and `3` at the two locations `0` and `1`, location `0` is suggested; with
the costs `11` and `14`, location `1`. -/
theorem C162_fixed_cost_counterexample :
    ((designSpace [{ name := some "d", type := some "discrete", domain := some (.flat [0, 1]) }] none).bind fun sp =>
      computeNext .sequential { exEnv with
        f := acquisitionFunction sp (fun x => .ok (1 + 2 * x.headD 0)) (fun x => .ok (1 + 3 * x.headD 0))
        oracle := ⟨{ exAcq with opt := fun _ _ x => .ok x }, exAcq⟩ } sp none false [] none none) = .ok [[0]] ∧
    ((designSpace [{ name := some "d", type := some "discrete", domain := some (.flat [0, 1]) }] none).bind fun sp =>
      computeNext .sequential { exEnv with
        f := acquisitionFunction sp (fun x => .ok (1 + 2 * x.headD 0)) (fun x => .ok (10 + (1 + 3 * x.headD 0)))
        oracle := ⟨{ exAcq with opt := fun _ _ x => .ok x }, exAcq⟩ } sp none false [] none none) = .ok [[1]] := by
  constructor <;> decide +kernel

/-- A local optimizer that takes a step if it improves the value by more than `1/1000`. -/
def toleranceOpt (g : Vec → Py ℚ) (x : Vec) : Py Vec :=
  match g x with
  | .error e => .error e
  | .ok v => match g (x.map (· + 1)) with
    | .error e => .error e
    | .ok w => if w + 1 / 1000 < v then .ok (x.map (· + 1)) else .ok x

/-- C162 (negation, optimizers with an absolute tolerance, as the projected gradient of L-BFGS has). An optimizer that
stays where it is if a step improves the value by less than `1/1000` suggests another location if all costs are
multiplied by `10000`. -/
theorem C162_tolerance_counterexample :
    let stepper : AcqOracle := { exAcq with opt := fun _ => toleranceOpt }
    let space := designSpace [{ name := some "x", type := some "continuous", domain := some (.flat [0, 10]) }] none
    let suggested := fun k : ℚ => space.bind fun sp => computeNext .sequential { exEnv with
        f := acquisitionFunction sp (fun x => .ok (1 + x.headD 0)) (fun _ => .ok k), oracle := ⟨stepper, stepper⟩ }
          sp none false [] none none
    suggested 10000 ≠ suggested 1 := by decide +kernel

/-- C162 (negation, costs that are modelled). The costs predicted for `cost_withGradients='evaluation_time'` are the
exponentials of the predictions of a Gaussian process with mean 0 for the logarithms of the times. With the times in
milliseconds instead of seconds the predictions are not proportional: one evaluation at `0`, whose prediction is the
data, and a location `1` whose prediction is the mean; the location with the larger acquisition per cost is another one. -/
theorem C162_time_unit_counterexample :
    ∃ (lg : ℚ → ℚ) (gp : Mat × Vec → (Nat → ℝ) → ℝ × (Nat → ℝ)) (w : (Nat → ℝ) → ℝ) (x₀ x₁ : Nat → ℝ) (a₀ a₁ : ℝ),
      (∀ X Y x, (gp (X, Y) x).1 = w x * ((Y.headD 0 : ℚ) : ℝ)) ∧ (∀ x, 0 ≤ w x ∧ w x ≤ 1) ∧ lg 1 = 0 ∧ 0 < lg 1000 ∧
      ∀ (user : (Nat → ℝ) → Py (ℝ × (Nat → ℝ))) (t : ℚ), t = 1 ∨ t = 1000 →
        ∃ (c₀ c₁ : ℝ) (g₀ g₁ : Nat → ℝ),
          (((costModelInit (.str "evaluation_time")).update lg (.ok ()) [[0]] (.list [t])).1.costWithGradients gp user x₀ =
            .ok (c₀, g₀)) ∧
          (((costModelInit (.str "evaluation_time")).update lg (.ok ()) [[0]] (.list [t])).1.costWithGradients gp user x₁ =
            .ok (c₁, g₁)) ∧
          (t = 1 → a₁ / c₁ < a₀ / c₀) ∧ (t = 1000 → a₀ / c₀ < a₁ / c₁) := by
  refine ⟨fun t => if t = 1 then 0 else 7, fun D x => ((if x 0 = 0 then 1 else 0) * ((D.2.headD 0 : ℚ) : ℝ), fun _ => 0),
    fun x => if x 0 = 0 then 1 else 0, fun _ => 0, fun _ => 1, 2, 1, fun _ _ _ => rfl, fun x => by dsimp only; split <;> norm_num,
    by norm_num, by norm_num, ?_⟩
  intro user t ht
  refine ⟨Real.exp (((if t = 1 then 0 else 7 : ℚ) : ℝ)), 1, fun _ => 0, fun _ => 0, ?_, ?_, ?_, ?_⟩
  · simp [costModelInit, CostModel.update, CostModel.costWithGradients, costColumn, columnValues]
  · simp [costModelInit, CostModel.update, CostModel.costWithGradients, costColumn, columnValues]
  · rintro rfl
    norm_num
  · rintro rfl
    have : (7 : ℝ) + 1 ≤ Real.exp 7 := Real.add_one_le_exp 7
    norm_num
    rw [div_lt_one (by positivity)]
    linarith

/-- C162. What the penalized acquisition of a batch makes of costs multiplied by `k`: apart from the constant
`log k`, the values change by at most `|k - 1|` times `10^-50` over the acquisition. -/
theorem C162_penalized_costs_partial {d : Nat} {acq k : ℝ} (ha : acq < 0) (hk : 0 < k) (batch : Option (List (Hammer d)))
    (x : Pt d) :
    |lpValue .none (acq / k) batch x - (lpValue .none acq batch x + Real.log k)| ≤ |k - 1| * (1 / 10 ^ 50) / -acq := by
  have hg : 0 < -acq := by linarith
  have key : |Real.log (-acq + k * (1 / 10 ^ 50)) - Real.log (-acq + 1 / 10 ^ 50)| ≤ |k - 1| * (1 / 10 ^ 50) / -acq := by
    generalize -acq = g at hg
    generalize he : (1 / 10 ^ 50 : ℝ) = ε
    have hε : 0 < ε := by rw [← he]; positivity
    have bound : ∀ u v : ℝ, 0 ≤ u → u ≤ v → Real.log (g + v) - Real.log (g + u) ≤ (v - u) / g := by
      intro u v hu huv
      have h1 : 0 < g + u := by linarith
      rw [← Real.log_div (by linarith) h1.ne']
      have h2 : Real.log ((g + v) / (g + u)) ≤ (g + v) / (g + u) - 1 := Real.log_le_sub_one_of_pos (by
        apply div_pos <;> linarith)
      have h3 : (g + v) / (g + u) - 1 = (v - u) / (g + u) := by field_simp; ring
      rw [h3] at h2
      exact h2.trans (div_le_div_of_nonneg_left (by linarith) hg (by linarith))
    have mono : ∀ u v : ℝ, 0 ≤ u → u ≤ v → Real.log (g + u) ≤ Real.log (g + v) := fun u v hu huv =>
      Real.log_le_log (by linarith) (by linarith)
    rcases le_total 1 k with h | h
    · have hle : ε ≤ k * ε := by nlinarith
      rw [abs_of_nonneg (sub_nonneg.2 (mono _ _ hε.le hle)), abs_of_nonneg (by linarith)]
      have := bound _ _ hε.le hle
      rwa [show k * ε - ε = (k - 1) * ε by ring] at this
    · have hle : k * ε ≤ ε := by nlinarith
      rw [abs_sub_comm, abs_of_nonneg (sub_nonneg.2 (mono _ _ (by positivity) hle)), abs_sub_comm, abs_of_nonneg (by linarith)]
      have := bound _ _ (by positivity : 0 ≤ k * ε) hle
      rwa [show ε - k * ε = (1 - k) * ε by ring] at this
  have e : Real.log (-(acq / k) + 1 / 10 ^ 50) = Real.log (-acq + k * (1 / 10 ^ 50)) - Real.log k := by
    rw [← Real.log_div (by positivity) hk.ne']
    congr 1
    field_simp
  rw [abs_sub_comm] at key
  have hv : lpValue .none (acq / k) batch x - (lpValue .none acq batch x + Real.log k) =
      Real.log (-acq + 1 / 10 ^ 50) - Real.log (-acq + k * (1 / 10 ^ 50)) := by
    unfold lpValue lpTransformed
    cases batch with
    | none => simp only; rw [e]; ring
    | some hs => simp only; rw [e]; ring
  rw [hv]
  exact key

/-- C162 (negation, penalized acquisitions). The small number that is added before the logarithm is not in the unit of
the acquisition per cost: with all costs multiplied by a (large) number another location is best for the penalized
acquisition. -/
theorem C162_penalized_costs_counterexample :
    ∃ (h : Hammer 1) (x₁ x₂ : Pt 1) (a₁ a₂ k : ℝ), a₁ < 0 ∧ a₂ < 0 ∧ 0 < k ∧
      lpValue .none a₁ (some [h]) x₁ < lpValue .none a₂ (some [h]) x₂ ∧
      lpValue .none (a₂ / k) (some [h]) x₂ < lpValue .none (a₁ / k) (some [h]) x₁ := by
  have h0 : hammerValue (⟨fun _ => 0, 0, 1⟩ : Hammer 1) (fun _ => 0) = Real.log (1 / 2) := by
    simp [hammerValue, euclid, ncdf_zero]
  have h1 : hammerValue (⟨fun _ => 0, 0, 1⟩ : Hammer 1) (fun _ => 1) = Real.log (ncdf 1) := by
    simp [hammerValue, euclid]
  have hc : 1 / 2 < ncdf 1 := by
    rw [← ncdf_zero]
    exact ncdf_strictMono one_pos
  have hc1 : ncdf 1 < 1 := ncdf_lt_one 1
  generalize ncdf 1 = c at h1 hc hc1
  have cmp : ∀ (u v p q : ℝ), 0 < u → 0 < v → 0 < p → 0 < q → u * p < v * q →
      -Real.log v + -(Real.log q) < -Real.log u + -(Real.log p) := by
    intro u v p q hu hv hp hq h
    have := Real.log_lt_log (by positivity) h
    rw [Real.log_mul hu.ne' hp.ne', Real.log_mul hv.ne' hq.ne'] at this
    linarith
  have val : ∀ (a : ℝ) (x : Pt 1), lpValue .none a (some [(⟨fun _ => 0, 0, 1⟩ : Hammer 1)]) x =
      -Real.log (-a + 1 / 10 ^ 50) + -(hammerValue (⟨fun _ => 0, 0, 1⟩ : Hammer 1) x) := by
    intro a x
    simp [lpValue, lpTransformed]
  have hd : 0 < c - 1 / 2 := by linarith
  refine ⟨⟨fun _ => 0, 0, 1⟩, fun _ => 0, fun _ => 1, -4, -1, 2 * 10 ^ 50 / (c - 1 / 2), by norm_num, by norm_num,
    by positivity, ?_, ?_⟩
  · rw [val, val, h0, h1]
    apply cmp <;> first | positivity | skip
    norm_num
    nlinarith
  · rw [val, val, h0, h1]
    apply cmp
    · rw [neg_div, neg_neg]; positivity
    · rw [neg_div, neg_neg]; positivity
    · norm_num
    · linarith
    · have e4 : -(-4 / (2 * 10 ^ 50 / (c - 1 / 2))) = 4 * (c - 1 / 2) * (1 / (2 * 10 ^ 50)) := by field_simp
      have e1 : -(-1 / (2 * 10 ^ 50 / (c - 1 / 2))) = (c - 1 / 2) * (1 / (2 * 10 ^ 50)) := by field_simp
      rw [e4, e1]
      norm_num
      nlinarith

/-! ### A case -/

theorem insertionSort_congr {α : Type} (r r' : α → α → Prop) [DecidableRel r] [DecidableRel r'] (l : List α)
    (h : ∀ a ∈ l, ∀ b ∈ l, (r a b ↔ r' a b)) : l.insertionSort r = l.insertionSort r' := by
  have ins : ∀ (a : α) (m : List α), (∀ b ∈ m, (r a b ↔ r' a b)) → m.orderedInsert r a = m.orderedInsert r' a := by
    intro a m hm
    induction m with
    | nil => rfl
    | cons b m ih =>
      rw [List.orderedInsert_cons, List.orderedInsert_cons, ih fun b hb => hm b (by simp [hb])]
      simp only [hm b (by simp)]
  induction l with
  | nil => rfl
  | cons a l ih =>
    rw [List.insertionSort_cons, List.insertionSort_cons,
      ih fun a ha b hb => h a (by simp [ha]) b (by simp [hb])]
    apply ins
    intro b hb
    exact h a (by simp) b (by simp [(List.mem_insertionSort _).1 hb])

/-- A stable sort only compares values. -/
theorem exArgsort_order (hφ : StrictMono φ) (l : List ℚ) : exArgsort (l.map φ) = exArgsort l := by
  unfold exArgsort
  rw [List.length_map]
  apply insertionSort_congr
  intro a ha b hb
  rw [List.mem_range] at ha hb
  simp only [List.getD_eq_getElem?_getD, List.getElem?_map, List.getElem?_eq_getElem ha, List.getElem?_eq_getElem hb,
    Option.map_some, Option.getD_some]
  exact hφ.le_iff_le

/-- A local optimizer that takes a step down if the value there is smaller. -/
def compareOpt (g : Vec → Py ℚ) (x : Vec) : Py Vec :=
  match g x with
  | .error e => .error e
  | .ok v => match g (x.map (· - 1)) with
    | .error e => .error e
    | .ok w => if w < v then .ok (x.map (· - 1)) else .ok x

theorem compareOpt_order (hφ : StrictMono φ) : OrderOnly φ { exAcq with opt := fun _ => compareOpt } := by
  refine ⟨exArgsort_order hφ, fun k g x => ?_⟩
  change compareOpt (fun y => (g y).map φ) x = compareOpt g x
  unfold compareOpt
  beta_reduce
  cases g x with
  | error e => rfl
  | ok v =>
    simp only [Except_map_ok]
    cases g (x.map (· - 1)) with
    | error e => rfl
    | ok w => simp only [Except_map_ok, hφ.lt_iff_lt]

/-- Costs in other units, that depend on the location: the hypotheses hold, and the location with the larger
acquisition per cost is suggested. -/
example : ∃ env : EvalEnv, OrderOnly (· / 1000) env.oracle.acq ∧ OrderOnly (· / 1000) env.oracle.batch ∧
    ((designSpace [{ name := some "d", type := some "discrete", domain := some (.flat [0, 1]) }] none).bind fun sp =>
      computeNext .sequential { env with
        f := acquisitionFunction sp (fun x => .ok (1 + 2 * x.headD 0)) fun x => .ok (1000 * (1 + 3 * x.headD 0)) }
        sp none false [] none none) = .ok [[0]] :=
  ⟨{ exEnv with oracle := ⟨{ exAcq with opt := fun _ => compareOpt }, { exAcq with opt := fun _ => compareOpt }⟩ },
    compareOpt_order fun a b h => div_lt_div_of_pos_right h (by norm_num),
    compareOpt_order fun a b h => div_lt_div_of_pos_right h (by norm_num), by decide +kernel⟩

end GPyOpt.Props
