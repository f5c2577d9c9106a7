import Verif.Model.Report
import Verif.Props.Constructor
import Verif.Props.Records

/-!
# Properties C101 to C104: reports, result files and plots
-/

namespace GPyOpt.Props

open GPyOpt Spec

/-! ## C101: the report -/

/-- The value of a line of a report. -/
def Line (file : List RLine) (label : String) (v : RVal) : Prop := ∀ v', (label, v') ∈ file ↔ v' = v

theorem writeLines_ok (ls : List RLine) : writeLines (ls.map .ok) = (ls, .ok ()) := by
  induction ls with
  | nil => rfl
  | cons l ls ih => simp only [List.map_cons, writeLines, ih]

theorem attrOf_some {α β : Type} (a : α) (f : α → β) : attrOf (some a) f = .ok (f a) := rfl

theorem reportMin_spec {Y : Vec} {y : ℚ} (h : ∃ i, argmin Y = .ok i ∧ Y[i]? = some y) :
    reportMin (some Y) = .ok y := by
  obtain ⟨i, h1, h2⟩ := h
  simp only [reportMin, h1]
  exact npGet_ok.2 h2

theorem reportArgmin_spec {X : Mat} {Y : Vec} {x : Vec} (h : ∃ i, argmin Y = .ok i ∧ X[i]? = some x) :
    reportArgmin X (some Y) = .ok x := by
  obtain ⟨i, h1, h2⟩ := h
  simp only [reportArgmin, h1]
  exact npGet_ok.2 h2

/-- What `_compute_results` reports and what the report computes are the same. -/
theorem computeResults_report {X : Mat} {Y : Vec} {r : Results} (h : computeResults X Y = .ok r) :
    reportMin (some Y) = .ok r.fxOpt ∧ reportArgmin X (some Y) = .ok r.xOpt := by
  unfold computeResults at h
  cases hi : argmin Y with
  | error e => simp [hi] at h
  | ok i =>
    simp only [hi] at h
    cases hx : npGet X i with
    | error e => simp [hx] at h
    | ok x =>
      simp only [hx] at h
      cases hy : npGet Y i with
      | error e => simp [hy] at h
      | ok y =>
        simp only [hy, Except.ok.injEq] at h
        subst h
        exact ⟨by simp [reportMin, hi, hy], by simp [reportArgmin, hi, hx]⟩

theorem filter_range_length (p : Kind → Bool) (ex : List EVar) :
    ((List.range ex.length).filter fun i => (ex[i]?.map (fun v => p v.kind)).getD false).length
      = ((ex.map EVar.kind).filter p).length := by
  induction ex with
  | nil => rfl
  | cons v ex ih =>
    rw [List.length_cons, List.range_succ_eq_map, List.filter_cons, List.filter_map, List.map_cons,
      List.filter_cons]
    simp only [List.getElem?_cons_zero, Option.map_some, Option.getD_some]
    have ih' : (((List.range ex.length).filter ((fun i => (Option.map
        (fun v : EVar => p v.kind) (v :: ex)[i]?).getD false) ∘ Nat.succ)).map Nat.succ).length
        = ((ex.map EVar.kind).filter p).length := by
      rw [List.length_map, ← ih]; rfl
    by_cases hp : p v.kind = true
    · rw [if_pos hp, if_pos hp, List.length_cons, List.length_cons, ih']
    · rw [if_neg hp, if_neg hp, ih']

theorem isNat_iff (l : Limit) (n : Nat) : l.isNat n = true ↔ l = .fin n := by
  cases l with
  | fin q => simp [Limit.isNat, eq_comm]
  | inf => simp [Limit.isNat]

/-- A complete report. -/
def fullReport (env : BOEnv) (b : BayesAttrs) (eps : ℚ) (s : BOState) (yes : Bool) (nc nd : Nat) (y : ℚ)
    (x : Vec) : List RLine :=
  [ ("Optimization completed", .completed yes s.X.length),
    ("Number initial samples", .nat b.numData), ("Tolerance", .num eps),
    ("Optimization time", .num s.cumTime), ("Problem name", .text b.objectiveName),
    ("Problem dimension", .nat env.sp.dimensionality), ("Number continuous variables", .nat nc),
    ("Number discrete variables", .nat nd), ("Number bandits", .nat env.sp.getBandit.length),
    ("Noiseless evaluations", .flag b.exactFeval), ("Cost used", .cost s.cost.kind),
    ("Constraints", .flag false), ("Normalized outputs", .flag env.normalizeY),
    ("Model type", .text b.modelType), ("Model update interval", .int env.interval),
    ("Acquisition type", .text b.acqType), ("Acquisition optimizer", .text b.optName),
    ("Acquisition type", .text b.acqType), ("Acquisition optimizer", .text b.optName),
    ("Evaluator type", .text b.evaluatorType), ("Batch size", .nat b.batchSize),
    ("Cores used", .nat b.numCores), ("Value at minimum", .num y),
    ("Best found minimum location", .row x) ]

theorem saveReport_full {env : BOEnv} {b : BayesAttrs} {mi : Limit} {eps : ℚ} {s : BOState}
    {c d : List Nat} {y : ℚ} {x : Vec} (hc : env.sp.getContinuousDims = .ok c)
    (hd : env.sp.getDiscreteDims = .ok d) (hy : reportMin s.Y = .ok y) (hx : reportArgmin s.X s.Y = .ok x) :
    saveReport env (some b) (some (mi, eps)) s
      = (fullReport env b eps s (mi.isNat s.numAcq) c.length d.length y x, .ok ()) := by
  rw [← writeLines_ok]
  unfold saveReport reportBody fullReport
  simp only [attrOf_some, hc, hd, hy, hx, Except.map, List.map_cons, List.map_nil]

/-- C101 (partial: objects of the class `BayesianOptimization` on spaces without bandit variables, and not
the lines about constraints and cost). After a completed run the report is written completely. It says
that the optimization is completed exactly if the run made as many acquisitions as asked for, and has
the number of locations, the numbers of variables of each kind, the minimum of the outputs and the
location where it was found. -/
theorem C101_report_partial (env : BOEnv) (config : List Desc) (cs : Option (List ConstrDict))
    (hsp : designSpace config cs = .ok env.sp) (hb : env.sp.hasBandit = false) (b : BayesAttrs)
    (a : RunArgs) (fuel : Nat) (s s' : BOState) (why : Stop)
    (h : runOptimization env a fuel s = (s', .done why)) :
    ∃ file yes r Y, saveReport env (some b) (some (a.limits.1, a.eps)) s' = (file, .ok ()) ∧
      s'.results = some r ∧ s'.Y = some Y ∧ IsMin Y r.fxOpt ∧
      Line file "Optimization completed" (.completed yes s'.X.length) ∧
      (yes = true ↔ a.maxIter = some (.fin s'.numAcq) ∨ a.maxIter = none ∧ a.maxTime = none ∧ s'.numAcq = 0) ∧
      Line file "Number initial samples" (.nat b.numData) ∧
      Line file "Problem dimension" (.nat (kindsOf config).length) ∧
      Line file "Number continuous variables" (.nat ((kindsOf config).filter Kind.isContinuous).length) ∧
      Line file "Number discrete variables" (.nat ((kindsOf config).filter Kind.isDiscrete).length) ∧
      Line file "Value at minimum" (.num r.fxOpt) ∧
      Line file "Best found minimum location" (.row r.xOpt) := by
  obtain ⟨obj, s0, bs, sk, s2, Y, r, -, -, -, -, -, -, hY, hr, rfl⟩ := runOptimization_done h
  obtain ⟨r', Y', -, hr', hY', hmin, -⟩ := C39_reported_optimum env a fuel s _ why h
  obtain ⟨m1, m2⟩ := computeResults_report hr
  have hk := space_kinds_eq hsp
  have hd := dimensionality_eq hsp hb
  have hc : env.sp.getContinuousDims = .ok ((List.range env.sp.dimensionality).filter fun i =>
      (env.sp.expanded[i]?.map (fun v => Kind.isContinuous v.kind)).getD false) :=
    dimsWhere_ok _ _ _ fun i hi => by rw [List.mem_range] at hi; omega
  have hdd : env.sp.getDiscreteDims = .ok ((List.range env.sp.dimensionality).filter fun i =>
      (env.sp.expanded[i]?.map (fun v => Kind.isDiscrete v.kind)).getD false) :=
    dimsWhere_ok _ _ _ fun i hi => by rw [List.mem_range] at hi; omega
  have hcl := filter_range_length Kind.isContinuous env.sp.expanded
  have hdl := filter_range_length Kind.isDiscrete env.sp.expanded
  have hkk : env.sp.expanded.map EVar.kind = kindsOf config := hk
  have hlen : env.sp.dimensionality = (kindsOf config).length := by rw [hd, ← hkk, List.length_map]
  rw [← hd, hkk] at hcl hdl
  simp only at hr' hY'
  cases hr'
  have hYY : Y' = Y := by rw [hY] at hY'; cases hY'; rfl
  subst hYY
  refine ⟨_, a.limits.1.isNat s2.numAcq, r, Y', saveReport_full hc hdd (by rw [hY]; exact m1)
    (by rw [hY]; exact m2), rfl, hY, hmin, ?_⟩
  have hl : a.limits.1 = .fin (s2.numAcq : ℚ) ↔
      a.maxIter = some (.fin s2.numAcq) ∨ a.maxIter = none ∧ a.maxTime = none ∧ s2.numAcq = 0 := by
    unfold RunArgs.limits
    rcases a.maxIter with _ | _ | _ <;> rcases a.maxTime with _ | _ <;> simp
    all_goals exact eq_comm.trans (by norm_cast)
  rw [isNat_iff, hcl, hdl, hl]
  unfold fullReport
  refine ⟨?_, Iff.rfl, ?_, ?_, ?_, ?_, ?_, ?_⟩ <;> · intro v; simp [hlen]

/-- The hypotheses of `C101_report_partial` are met, and the report, on a run of three iterations. -/
example : ((designSpace exLine none).map fun sp =>
      let r := runOptimization (exBO sp) { maxIter := some (.fin 3) } 10 (boInit [[0], [1]] none .none)
      (sp.hasBandit, r.2, (saveReport (exBO sp) (some {}) (some (.fin 3, 0)) r.1).1.filter
          fun l => l.1 ∈ ["Optimization completed", "Problem dimension", "Value at minimum",
            "Best found minimum location"]))
    = .ok (false, .done .limit, [("Optimization completed", .completed true 5),
        ("Problem dimension", .nat 1), ("Value at minimum", .num 0),
        ("Best found minimum location", .row [1/4])]) := by decide +kernel

/-- C101 (negation of the full property, 1). The report of a `ModularBayesianOptimization` object always
raises; the file ends after the line about completion. -/
theorem C101_modular_counterexample (env : BOEnv) (mi : Limit) (eps : ℚ) (s : BOState) :
    ∃ yes, saveReport env none (some (mi, eps)) s
      = ([("Optimization completed", .completed yes s.X.length)], .error .attributeError) :=
  ⟨_, rfl⟩

/-- C101 (negation of the full property, before a run). Before the first `run_optimization` the limits do not exist: the
report is an empty file and an exception. Without outputs there is no table of evaluations either. -/
theorem C101_before_run_counterexample (env : BOEnv) (attrs : Option BayesAttrs) (s : BOState) (fs : Files) :
    saveReport env attrs none s = ([], .error .attributeError) ∧
      (s.Y = none → saveEvaluationsIf true s fs = (fs, .error .attributeError)) :=
  ⟨rfl, fun h => by simp [saveEvaluationsIf, h]⟩

/-- C101 (negation of the full property, 2). Whatever the constraints of the problem are, a report never
says that there are any. -/
theorem C101_constraints_counterexample (env : BOEnv) (attrs : Option BayesAttrs)
    (lim : Option (Limit × ℚ)) (s : BOState) (v : RVal)
    (h : ("Constraints", v) ∈ (saveReport env attrs lim s).1) : v = .flag false := by
  have key : ∀ (ls : List (Py RLine)), ("Constraints", v) ∈ (writeLines ls).1 →
      Except.ok ("Constraints", v) ∈ ls := by
    intro ls
    induction ls with
    | nil => intro h; simp [writeLines] at h
    | cons l ls ih =>
      intro h
      cases l with
      | error e => simp [writeLines] at h
      | ok l =>
        simp only [writeLines, List.mem_cons] at h
        rcases h with rfl | h
        · simp
        · exact List.mem_cons_of_mem _ (ih h)
  cases lim with
  | none => simp [saveReport] at h
  | some l =>
    obtain ⟨mi, eps⟩ := l
    have h := key _ h
    have nf : ∀ (β : Type) (x : Py β) (l : String) (g : β → RVal), l ≠ "Constraints" →
        Except.ok (α := RLine) ("Constraints", v) ≠ (x.map fun w => (l, g w) : Py RLine) := by
      intro β x l g hl he
      cases x with
      | error e => simp [Except.map] at he
      | ok w =>
        simp only [Except.map, Except.ok.injEq, Prod.mk.injEq] at he
        exact hl he.1.symm
    simp only [reportBody, List.mem_cons, List.not_mem_nil, or_false, Except.ok.injEq, Prod.mk.injEq] at h
    rcases h with h | h | h | h | h | h | h | h | h | h | h | h | h | h | h | h | h | h | h | h | h | h
      | h | h
    all_goals first
      | exact absurd h (nf _ _ _ _ (by decide))
      | exact absurd h.1 (by decide)
      | skip
    cases attrs with
    | none => simp [attrOf, Except.map] at h
    | some b =>
      simp only [attrOf, Except.map, Except.ok.injEq, Prod.mk.injEq] at h
      exact h.2

theorem run_cost {env : BOEnv} {a : RunArgs} {fuel : Nat} {s s' : BOState} {why : Stop}
    (hY : s.Y ≠ none) (hc : s.cost.kind ≠ .evaluationTime)
    (h : runOptimization env a fuel s = (s', .done why)) : s'.cost = s.cost := by
  obtain ⟨obj, s0, bs, sk, s2, Y, r, -, -, hst, htr, -, hsp, -, -, rfl⟩ := runOptimization_done h
  have key : ∀ {s s'} {bs}, Trace env obj a.limits.1 a.limits.2 a.eps s bs s' →
      s.cost.kind ≠ .evaluationTime → s'.cost = s.cost := by
    intro s s' bs ht
    induction ht with
    | nil => exact fun _ => rfl
    | cons hr hs ht ih =>
      intro hk
      obtain ⟨ts, c', hcc⟩ := hs.cost
      rw [update_other hk] at hcc
      injection hcc with hcc
      rw [ih (by rw [← hcc]; exact hk), hcc]
  obtain ⟨ps, fs, rfl⟩ := hsp.frame
  have h0 := hst.cost hY
  show sk.cost = s.cost
  rw [key htr (by rw [h0]; exact hc), h0]

/-- C101 (negation of the full property, 3). The report after a run of a `BayesianOptimization` object
says that the cost is user defined, also if no cost or `'evaluation_time'` was asked for. -/
theorem C101_cost_counterexample (a : BayesArgs) (config : List Desc) (cs : Option (List ConstrDict))
    (o : DesignOracle) (evaluate : Mat → World → World × Py Vec) (w : World) (b : BayesObj)
    (hcon : bayesConstruct a config cs o evaluate = (w, .ok b)) (env : BOEnv) (hsp : env.sp = b.sp)
    (hb : b.sp.hasBandit = false) (attrs : BayesAttrs) (ra : RunArgs) (fuel : Nat) (s' : BOState)
    (why : Stop) (h : runOptimization env ra fuel b.state = (s', .done why)) :
    Line (saveReport env (some attrs) (some (ra.limits.1, ra.eps)) s').1 "Cost used" (.cost .userDefined) := by
  obtain ⟨X, Y, h1, -, hst⟩ := bayesConstruct_ok hcon
  have hc : s'.cost.kind = .userDefined := by
    rw [run_cost (by rw [hst]; simp [boInit]) (by rw [hst]; simp [boInit, costModelInit]) h, hst]
    rfl
  obtain ⟨obj, s0, bs, sk, s2, Y, r, -, -, -, -, -, -, hY, hr, rfl⟩ := runOptimization_done h
  obtain ⟨m1, m2⟩ := computeResults_report hr
  have hsp' : designSpace config cs = .ok env.sp := by rw [hsp]; exact h1
  have hd := dimensionality_eq hsp' (by rw [hsp]; exact hb)
  have hcd : env.sp.getContinuousDims = .ok ((List.range env.sp.dimensionality).filter fun i =>
      (env.sp.expanded[i]?.map (fun v => Kind.isContinuous v.kind)).getD false) :=
    dimsWhere_ok _ _ _ fun i hi => by rw [List.mem_range] at hi; omega
  have hdd : env.sp.getDiscreteDims = .ok ((List.range env.sp.dimensionality).filter fun i =>
      (env.sp.expanded[i]?.map (fun v => Kind.isDiscrete v.kind)).getD false) :=
    dimsWhere_ok _ _ _ fun i hi => by rw [List.mem_range] at hi; omega
  rw [saveReport_full hcd hdd (by rw [hY]; exact m1) (by rw [hY]; exact m2)]
  simp only at hc
  unfold fullReport
  intro v
  simp [hc]

/-- A bandit variable with two arms. -/
def exArms (arms : Mat) : List Desc :=
  [{ name := some "b", type := some "bandit", domain := some (.rows arms) }]

/-- C101 (negation of the full property, 4). The report on a problem with one bandit variable with three
arms of one column says that there are three bandits; if the arms have two columns the report raises and
stops in the middle. -/
theorem C101_bandit_counterexample :
    ((designSpace (exArms [[0], [1], [2]]) none).map fun sp =>
      let s := { boInit [[0], [1]] (some [1, 2]) .none with numAcq := 3 }
      ((saveReport (exBO sp) (some {}) (some (.fin 3, 0)) s).2,
        (saveReport (exBO sp) (some {}) (some (.fin 3, 0)) s).1.filter fun l => l.1 = "Number bandits"))
      = .ok (.ok (), [("Number bandits", .nat 3)]) ∧
    ((designSpace (exArms [[0, 0], [1, 1]]) none).map fun sp =>
      let s := { boInit [[0, 0], [1, 1]] (some [1, 2]) .none with numAcq := 3 }
      ((saveReport (exBO sp) (some {}) (some (.fin 3, 0)) s).2,
        (saveReport (exBO sp) (some {}) (some (.fin 3, 0)) s).1.map Prod.fst))
      = .ok (.error .indexError, ["Optimization completed", "Number initial samples", "Tolerance",
          "Optimization time", "Problem name", "Problem dimension"]) := by
  decide +kernel

/-! ## C102: result files -/

/-- C102. Asking for files does not change what the run does: the state afterwards is the same as without
files. A run that did not complete writes no file, and only a completed run can end in another way. -/
theorem C102_files_keep_run (env : BOEnv) (attrs : Option BayesAttrs) (names : List String) (fa : FileArgs)
    (a : RunArgs) (fuel : Nat) (s : BOState) :
    (runWithFiles env attrs names fa a fuel s).1 = (runOptimization env a fuel s).1 ∧
    ((∀ why, (runOptimization env a fuel s).2 ≠ .done why) →
      (runWithFiles env attrs names fa a fuel s).2 = ((runOptimization env a fuel s).2, {})) := by
  unfold runWithFiles
  rcases hr : runOptimization env a fuel s with ⟨s', r⟩
  cases r with
  | running => exact ⟨rfl, fun _ => rfl⟩
  | raised e => exact ⟨rfl, fun _ => rfl⟩
  | done why =>
    refine ⟨?_, fun h => absurd rfl (h why)⟩
    simp only
    rcases writeFiles env attrs names fa (a.limits.1, a.eps) s' with ⟨fs, e | u⟩ <;> rfl

theorem saveModels_spec {names : List String} {s : BOState} {ps : Mat} (h : s.params = some ps) :
    ∃ rows, saveModels names s = .ok ("Iteration" :: names, rows) ∧ rows.map (List.drop 1) = ps ∧
      rows.map (fun r => r.headD 0) = (List.range ps.length).map fun k : Nat => (k : ℚ) + 1 := by
  refine ⟨List.zipWith (fun (k : Nat) (p : Vec) => ((k : ℚ) + 1) :: p) (List.range ps.length) ps,
    by simp only [saveModels, h], ?_, ?_⟩
  · apply List.ext_getElem
    · simp
    · intro i h1 h2; simp
  · apply List.ext_getElem
    · simp
    · intro i h1 h2; simp

/-- C102 (partial: `BayesianOptimization` objects on spaces without bandit variables, aligned data, and a
run that updated the model at least once). After a completed run exactly the files asked for exist. The
report is complete; the file of evaluations has all locations and outputs in order, numbered from one; the
file of models has all recorded parameters in order, numbered from one. -/
theorem C102_files_partial (env : BOEnv) (config : List Desc) (cs : Option (List ConstrDict))
    (hsp : designSpace config cs = .ok env.sp) (hb : env.sp.hasBandit = false) (b : BayesAttrs)
    (names : List String) (fa : FileArgs) (a : RunArgs) (fuel : Nat) (s s' : BOState) (why : Stop)
    (hal : ∀ Y, s.Y = some Y → s.X.length = Y.length)
    (h : runOptimization env a fuel s = (s', .done why)) (hm : why = .limit ∨ 0 < s'.numAcq) :
    ∃ fs, runWithFiles env (some b) names fa a fuel s = (s', .done why, fs) ∧
      (fa.report = false → fs.report = none) ∧
      (fa.report = true → ∃ file r, fs.report = some file ∧ s'.results = some r ∧
        Line file "Best found minimum location" (.row r.xOpt)) ∧
      (fa.evaluations = false → fs.evaluations = none) ∧
      (fa.evaluations = true → ∃ header rows, fs.evaluations = some (header, rows) ∧
        rows.map (List.drop 2) = s'.X ∧ s'.Y = some (rows.map fun r => (r.drop 1).headD 0) ∧
        rows.map (fun r => r.headD 0) = (List.range s'.X.length).map fun k : Nat => (k : ℚ) + 1) ∧
      (fa.models = false → fs.models = none) ∧
      (fa.models = true → ∃ rows, fs.models = some ("Iteration" :: names, rows) ∧
        s'.params = some (rows.map (List.drop 1)) ∧
        rows.map (fun r => r.headD 0) = (List.range rows.length).map fun k : Nat => (k : ℚ) + 1) := by
  obtain ⟨file, yes, r, Y, hrep, hr, hY, -, -, -, -, -, -, -, -, hline⟩ :=
    C101_report_partial env config cs hsp hb b a fuel s s' why h
  have hlen : s'.X.length = Y.length := by
    obtain ⟨obj, Y0, new, bs, -, hc, hX, hY', hl, -⟩ := run_data h
    rw [hY] at hY'
    cases hY'
    have : s.X.length = Y0.length := by
      rcases hc with ⟨h1, -⟩ | ⟨-, -, h1⟩
      · exact hal _ h1
      · exact h1.symm
    rw [hX]; simp [this, hl]
  have hps : ∃ ps, s'.params = some ps := by
    have := C43_parameter_rows env a fuel s s' why h
    cases hp : s'.params with
    | some ps => exact ⟨ps, rfl⟩
    | none =>
      rw [hp] at this
      simp only [Option.getD_none, List.length_nil] at this
      rcases hm with rfl | hm
      · simp at this
      · omega
  obtain ⟨ps, hps⟩ := hps
  obtain ⟨mrows, hm1, hm2, hm3⟩ := saveModels_spec (names := names) hps
  obtain ⟨e1, e2⟩ := C47_saved_evaluations s'.X Y
  obtain ⟨⟨header, rows⟩, ht⟩ := e1.2 hlen
  obtain ⟨e3, e4, e5, e6, -⟩ := e2 header rows ht
  have e7 : rows.map (fun r => r.headD 0) = (List.range s'.X.length).map fun k : Nat => (k : ℚ) + 1 := by
    apply List.ext_getElem
    · simp [e3, hlen]
    · intro i h1 h2
      rw [List.getElem_map, List.getElem_map, List.getElem_range]
      obtain ⟨x, y, -, -, hrow⟩ := e4 i _ (List.getElem?_eq_getElem (by simpa using h1))
      rw [hrow]; rfl
  refine ⟨{ report := if fa.report then some file else none,
            evaluations := if fa.evaluations then some (header, rows) else none,
            models := if fa.models then some ("Iteration" :: names, mrows) else none }, ?_, ?_, ?_, ?_, ?_, ?_, ?_⟩
  · unfold runWithFiles
    rw [h]
    simp only
    have hw : writeFiles env (some b) names fa (a.limits.1, a.eps) s' =
        ({ report := if fa.report then some file else none,
            evaluations := if fa.evaluations then some (header, rows) else none,
            models := if fa.models then some ("Iteration" :: names, mrows) else none }, .ok ()) := by
      unfold writeFiles saveEvaluationsIf saveModelsIf
      rw [hrep]
      cases fa.report <;> cases fa.evaluations <;> cases fa.models <;> simp [hY, ht, hm1]
    rw [hw]
  · intro h; simp [h]
  · intro h; exact ⟨file, r, by simp [h], hr, hline⟩
  · intro h; simp [h]
  · intro h; exact ⟨header, rows, by simp [h], e5, by rw [e6]; exact hY, e7⟩
  · intro h; simp [h]
  · intro h
    refine ⟨mrows, by simp [h], by rw [hm2]; exact hps, ?_⟩
    rw [hm3]
    congr 2
    rw [← hm2, List.length_map]

/-- All three files of a run of three iterations: the hypotheses of `C102_files_partial` are met. -/
example : ((designSpace exLine none).map fun sp =>
      let r := runWithFiles (exBO sp) (some {}) ["variance"] { report := true, evaluations := true, models := true }
        { maxIter := some (.fin 2) } 10 (boInit [[0], [1]] none .none)
      (r.2.1, r.2.2.evaluations))
    = .ok (.done .limit,
        some (["Iteration", "Y", "var_1"], [[1, 1/16, 0], [2, 9/16, 1], [3, 1/144, 1/3], [4, 0, 1/4]])) := by
  decide +kernel

example : ((designSpace exLine none).map fun sp =>
      let r := runWithFiles (exBO sp) (some {}) ["variance"] { report := true, evaluations := true, models := true }
        { maxIter := some (.fin 2) } 10 (boInit [[0], [1]] none .none)
      (r.2.2.report.map List.length, r.2.2.models))
    = .ok (some 24, some (["Iteration", "variance"], [[1, 1], [2, 1], [3, 2]])) := by decide +kernel

/-- C102 (negation of the full property, 1). For every run of a `ModularBayesianOptimization` object:
asking for a report and for the evaluations loses the evaluations, although the run completed. -/
theorem C102_modular_counterexample (env : BOEnv) (names : List String) (fa : FileArgs)
    (hr : fa.report = true) (a : RunArgs) (fuel : Nat) (s s' : BOState) (why : Stop)
    (h : runOptimization env a fuel s = (s', .done why)) :
    ∃ file, runWithFiles env none names fa a fuel s
      = (s', .raised .attributeError, { report := some file, evaluations := none, models := none }) := by
  obtain ⟨yes, hm⟩ := C101_modular_counterexample env a.limits.1 a.eps s'
  refine ⟨[("Optimization completed", RVal.completed yes (List.length s'.X))], ?_⟩
  unfold runWithFiles writeFiles
  rw [h]
  simp only [hr, if_true, hm]

/-- C102 (negation of the full property, 2). With `max_time = 0` and a file for the models the run completes
and then raises, because no parameters have been recorded. -/
theorem C102_max_time_counterexample :
    ((designSpace exLine none).map fun sp =>
      let r := runWithFiles (exBO sp) (some {}) ["variance"] { models := true }
        { maxIter := none, maxTime := some (.fin 0) } 10 (boInit [[0], [1]] (some [1, 2]) .none)
      (r.2, (runOptimization (exBO sp) { maxIter := none, maxTime := some (.fin 0) } 10
        (boInit [[0], [1]] (some [1, 2]) .none)).2))
    = .ok ((.raised .valueError, {}), .done .time) := by decide +kernel

/-! ## C103: plotting the acquisition -/

theorem plot_state (env : BOEnv) (copyFit draw : Py Unit) (s : BOState) :
    (plotAcquisition env copyFit draw s).1 = s ∨
    (plotAcquisition env copyFit draw s).1 = (suggestNext env none none none s).1 := by
  unfold plotAcquisition
  split
  · exact Or.inl rfl
  · split
    · exact Or.inl rfl
    · right
      rcases suggestNext env none none none s with ⟨s', e | m⟩
      · rfl
      · simp only
        cases draw <;> rfl

/-- C103. Plotting the acquisition, whether it succeeds or not, keeps the data, the record of evaluations,
the cost model and the results; and, if the components of the optimizer depend on the data only, every
later run gives the same data, evaluations, times, outcome and results as without the plot. -/
theorem C103_plot_keeps_data (env : BOEnv) (copyFit draw : Py Unit) (s : BOState) :
    let s' := (plotAcquisition env copyFit draw s).1
    (s'.X = s.X ∧ s'.Y = s.Y ∧ s'.world = s.world ∧ s'.cost = s.cost ∧ s'.results = s.results) ∧
    (DataOnly env → s.cost.kind ≠ .evaluationTime → ∀ (a : RunArgs) (fuel : Nat),
      let r := runOptimization env a fuel s'
      let r' := runOptimization env a fuel s
      r.1.X = r'.1.X ∧ r.1.Y = r'.1.Y ∧ r.1.world = r'.1.world ∧ r.2 = r'.2 ∧
        (∀ why, r.2 = .done why → r.1.results = r'.1.results)) := by
  simp only
  rcases plot_state env copyFit draw s with h | h <;> rw [h]
  · simp
  · exact ⟨C41_suggest_keeps_data env none none none s, fun hd hk a fuel =>
      C41_suggest_then_run env hd none none none a fuel s hk⟩

/-- C103 (partial: the model was fitted in the last round of the last run, that is the run was not ended by
time or a failed fit and its number of acquisitions is a multiple of the update interval). The plotted data
are all the data, as the model gets them. -/
theorem C103_plotted_data_partial (env : BOEnv) (copyFit draw : Py Unit) (a : RunArgs) (fuel : Nat)
    (s s' : BOState) (h : runOptimization env a fuel s = (s', .done .limit))
    (hd : env.interval ∣ (s'.numAcq : Int)) (d : Mat × Vec) (m : Mat)
    (hp : (plotAcquisition env copyFit draw s').2 = .ok (d, m)) :
    ∃ Y, s'.Y = some Y ∧ env.sp.unzipInputs s'.X = .ok d.1 ∧
      d.2 = if env.normalizeY then env.normalize Y else Y := by
  obtain ⟨bs, Y0, F, K, h1, h2, h3, h4, h5, h6, -, h8, -⟩ := C42_update_interval env a fuel s s' .limit h
  have hK := h8 rfl
  have hlast : (F.map Fit.acq).getLast? = some bs.length := by
    rw [h5, hK]
    unfold multiples
    rw [List.range_succ, List.filter_append, List.filter_cons, if_pos (by rw [h3] at hd; simpa using hd)]
    simp
  rw [List.getLast?_map] at hlast
  cases hF : F.getLast? with
  | none => rw [hF] at hlast; simp at hlast
  | some f =>
    rw [hF] at hlast
    simp only [Option.map_some, Option.some.injEq] at hlast
    have hfl : s'.fits.getLast? = some f := by
      rw [h4, List.getLast?_append, hF]; rfl
    obtain ⟨g1, g2⟩ := h6 f (List.mem_of_getLast? hF)
    rw [hlast, List.take_length] at g1 g2
    have hpd : plotData env s' = some (f.X, f.Y) := by
      unfold plotData; rw [hfl]
    have hdd : d = (f.X, f.Y) := by
      unfold plotAcquisition at hp
      rw [hpd] at hp
      simp only at hp
      rcases hc : (if s'.fits = [] then copyFit else .ok ()) with e | u
      · rw [hc] at hp; simp at hp
      · rw [hc] at hp
        simp only at hp
        rcases hs : suggestNext env none none none s' with ⟨t, e | m'⟩
        · rw [hs] at hp; simp at hp
        · rw [hs] at hp
          cases draw with
          | error e => simp at hp
          | ok u =>
            simp only [Except.ok.injEq, Prod.mk.injEq] at hp
            exact hp.1.symm
    subst hdd
    exact ⟨_, h2, by rw [h1]; exact g1, g2⟩

/-- The hypotheses of `C103_plotted_data_partial` are met: two acquisitions, interval two. -/
example : ((designSpace exLine none).map fun sp =>
      let r := runOptimization (exBO sp) { maxIter := some (.fin 2) } 10 (boInit [[0], [1]] none .none)
      (r.2, r.1.numAcq)) = .ok (.done .limit, 2) := by
  decide +kernel

example : ((designSpace exLine none).map fun sp =>
      let r := runOptimization (exBO sp) { maxIter := some (.fin 2) } 10 (boInit [[0], [1]] none .none)
      (plotAcquisition (exBO sp) (.ok ()) (.ok ()) r.1).2)
    = .ok (.ok (([[0], [1], [1/3], [1/4]], [1/16, 9/16, 1/144, 0]), [[1/5]])) := by
  decide +kernel

/-- C103. Before any model was fitted the plotted data are all the data: the outputs as the model gets them, and the locations
as the user wrote them (not encoded, see `C103_plotted_data_counterexample`). -/
theorem C103_plot_before_fit (env : BOEnv) (copyFit draw : Py Unit) (s : BOState) (hf : s.fits = []) (d : Mat × Vec) (m : Mat)
    (hp : (plotAcquisition env copyFit draw s).2 = .ok (d, m)) :
    ∃ Y, s.Y = some Y ∧ d.1 = s.X ∧ d.2 = if env.normalizeY then env.normalize Y else Y := by
  cases hY : s.Y with
  | none =>
    have : plotData env s = none := by simp [plotData, hf, hY]
    simp [plotAcquisition, this] at hp
  | some Y =>
    refine ⟨Y, rfl, ?_⟩
    have hpd : plotData env s = some (s.X, env.modelY Y) := by simp [plotData, hf, hY]
    have hdd : d = (s.X, env.modelY Y) := by
      unfold plotAcquisition at hp
      rw [hpd] at hp
      simp only [hf, if_true] at hp
      cases copyFit with
      | error e => simp at hp
      | ok u =>
        simp only at hp
        rcases hs : suggestNext env none none none s with ⟨s', e | m'⟩
        · rw [hs] at hp; simp at hp
        · rw [hs] at hp
          cases draw with
          | error e => simp at hp
          | ok u =>
            simp only [Except.ok.injEq, Prod.mk.injEq] at hp
            exact hp.1.symm
    rw [hdd]
    exact ⟨rfl, rfl⟩

/-- C103 (negation of the full property, 1). Plotting is not free of effects: after every successful plot
the number of acquisitions is zero, the context is lost, and of the recorded parameters only one row is
left; the report of a run then says that it was not completed unless `max_iter` was zero. -/
theorem C103_plot_resets_counterexample (env : BOEnv) (copyFit draw : Py Unit) (s s' : BOState)
    (d : (Mat × Vec) × Mat) (h : plotAcquisition env copyFit draw s = (s', .ok d)) :
    s'.numAcq = 0 ∧ s'.context = none ∧ (∃ p, s'.params = some [p]) ∧
    ∀ (b : Option BayesAttrs) (mi : Limit) (eps : ℚ), mi ≠ .fin 0 →
      ("Optimization completed", .completed false s.X.length) ∈ (saveReport env b (some (mi, eps)) s').1 := by
  unfold plotAcquisition at h
  split at h
  · simp at h
  · split at h
    · simp at h
    · rcases hs : suggestNext env none none none s with ⟨t, e | m⟩
      · rw [hs] at h; simp at h
      · rw [hs] at h
        have ht : s' = t := by
          cases draw with
          | error e => simp at h
          | ok u => simp only [Prod.mk.injEq] at h; exact h.1.symm
        subst ht
        unfold suggestNext at hs
        simp only at hs
        rcases hu : updateModel env { s with params := none, numAcq := 0, context := none } with ⟨u1, e | u⟩
        · rw [hu] at hs; simp at hs
        · rw [hu] at hs
          simp only [Prod.mk.injEq] at hs
          obtain ⟨p, hp⟩ := updateModel_ok hu
          rw [← hs.1, hp]
          refine ⟨rfl, rfl, ⟨p, rfl⟩, fun b mi eps hmi => ?_⟩
          have hnat : mi.isNat 0 = false := by
            rw [Bool.eq_false_iff]
            intro hh
            exact hmi (by simpa using (isNat_iff mi 0).1 hh)
          simp [saveReport, writeLines, hnat]

/-- C103 (negation of the full property, 2). With `model_update_interval = 2` and an odd number of
acquisitions the last evaluation is missing in the plot, but the suggestion takes it into account; and
before the first run of an object with a categorical variable the plotted model is fitted to the indices of
the categories instead of their encoding. -/
theorem C103_plotted_data_counterexample :
    ((designSpace exLine none).map fun sp =>
      let r := runOptimization (exBO sp) { maxIter := some (.fin 1) } 10 (boInit [[0], [1]] none .none)
      (r.2, r.1.X)) = .ok (.done .limit, [[0], [1], [1/3]]) ∧
    ((designSpace exLine none).map fun sp =>
      let r := runOptimization (exBO sp) { maxIter := some (.fin 1) } 10 (boInit [[0], [1]] none .none)
      (plotAcquisition (exBO sp) (.ok ()) (.ok ()) r.1).2)
    = .ok (.ok (([[0], [1]], [1/16, 9/16]), [[1/4]])) ∧
    ((designSpace [{ name := some "c", type := some "categorical", domain := some (.flat [0, 1]) }] none).map
      fun sp => ((plotAcquisition (exBO sp) (.ok ()) (.ok ()) (boInit [[0], [1]] (some [1, 2]) .none)).2.map
        fun d => d.1.1, sp.unzipInputs [[0], [1]]))
    = .ok (.ok [[0], [1]], .ok [[1, 0], [0, 1]]) := by
  decide +kernel

theorem acqu_min_spec (l : List ℝ) (a : ℝ) :
    l.foldl min a ≤ a ∧ (∀ v ∈ l, l.foldl min a ≤ v) ∧ (l.foldl min a = a ∨ l.foldl min a ∈ l) := by
  induction l generalizing a with
  | nil => simp
  | cons x l ih =>
    obtain ⟨h1, h2, h3⟩ := ih (min a x)
    simp only [List.foldl_cons]
    refine ⟨h1.trans (min_le_left _ _), ?_, ?_⟩
    · intro v hv
      rcases List.mem_cons.1 hv with rfl | hv
      · exact h1.trans (min_le_right _ _)
      · exact h2 v hv
    · rcases h3 with h3 | h3
      · rcases min_choice a x with hm | hm
        · left; rw [h3, hm]
        · right; rw [h3, hm]; simp
      · right; exact List.mem_cons_of_mem _ h3

theorem acqu_max_spec (l : List ℝ) (a : ℝ) :
    a ≤ l.foldl max a ∧ (∀ v ∈ l, v ≤ l.foldl max a) ∧ (l.foldl max a = a ∨ l.foldl max a ∈ l) := by
  induction l generalizing a with
  | nil => simp
  | cons x l ih =>
    obtain ⟨h1, h2, h3⟩ := ih (max a x)
    simp only [List.foldl_cons]
    refine ⟨(le_max_left _ _).trans h1, ?_, ?_⟩
    · intro v hv
      rcases List.mem_cons.1 hv with rfl | hv
      · exact (le_max_right _ _).trans h1
      · exact h2 v hv
    · rcases h3 with h3 | h3
      · rcases max_choice a x with hm | hm
        · left; rw [h3, hm]
        · right; rw [h3, hm]; simp
      · right; exact List.mem_cons_of_mem _ h3

/-- C103, the plotted acquisition. `acq` are the values of `acquisition_function` (minus the acquisition) on
the grid. The curve has one value per grid point, in [0, 1], with 0 and 1 attained, and is in the order of the
acquisition; there is no curve (division of zero by zero) exactly if the acquisition is constant on the
grid. -/
theorem C103_plotted_acquisition (acq : List ℝ) (hne : acq ≠ []) :
    (acquNormalized acq = .ok none ∧ ∀ u ∈ acq, ∀ v ∈ acq, u = v) ∨
    ((∃ u ∈ acq, ∃ v ∈ acq, u ≠ v) ∧ ∃ l : List ℝ, acquNormalized acq = .ok (some l) ∧
      l.length = acq.length ∧ (∀ v ∈ l, 0 ≤ v ∧ v ≤ 1) ∧ (0 : ℝ) ∈ l ∧ (1 : ℝ) ∈ l ∧
      ∀ (i j : Nat) (u v u' v' : ℝ), acq[i]? = some u → acq[j]? = some v → l[i]? = some u' → l[j]? = some v' →
        (u' < v' ↔ -u < -v)) := by
  cases acq with
  | nil => exact absurd rfl hne
  | cons q qs =>
    obtain ⟨m1, m2, m3⟩ := acqu_min_spec (qs.map Neg.neg) (-q)
    set lo := (qs.map Neg.neg).foldl min (-q) with hlo
    have hlo' : ∀ u ∈ q :: qs, lo ≤ -u := by
      intro u hu
      rcases List.mem_cons.1 hu with rfl | hu
      · exact m1
      · exact m2 _ (List.mem_map_of_mem hu)
    have hatt : ∃ u ∈ q :: qs, -u = lo := by
      rcases m3 with m3 | m3
      · exact ⟨q, by simp, m3.symm⟩
      · obtain ⟨u, hu, he⟩ := List.mem_map.1 m3
        exact ⟨u, List.mem_cons_of_mem _ hu, he⟩
    set sh : List ℝ := (q :: qs).map fun u => -u - lo with hsh
    obtain ⟨M1, M2, M3⟩ := acqu_max_spec sh (-q - lo)
    set hi := sh.foldl max (-q - lo) with hhi
    have hhi' : ∀ u ∈ q :: qs, -u - lo ≤ hi := fun u hu => M2 _ (List.mem_map_of_mem (f := fun u => -u - lo) hu)
    have hatt' : ∃ u ∈ q :: qs, -u - lo = hi := by
      rcases M3 with M3 | M3
      · exact ⟨q, by simp, M3.symm⟩
      · obtain ⟨u, hu, he⟩ := List.mem_map.1 M3
        exact ⟨u, hu, he⟩
    have hval : acquNormalized (q :: qs) = if hi = 0 then .ok none else .ok (some (sh.map (· / hi))) := by
      unfold acquNormalized
      simp only [List.map_cons]
      rw [← hlo]
      have : List.map (fun x => x - lo) (List.map Neg.neg qs) = qs.map fun u => -u - lo := by
        rw [List.map_map]; rfl
      rw [this, hhi, hsh, List.map_cons]
      rfl
    rw [hval]
    by_cases h0 : hi = 0
    · left
      rw [if_pos h0]
      refine ⟨rfl, ?_⟩
      have hall : ∀ u ∈ q :: qs, -u = lo := fun u hu => by
        have := hhi' u hu; have := hlo' u hu; linarith
      intro u hu v hv
      have := hall u hu; have := hall v hv; linarith
    · right
      rw [if_neg h0]
      obtain ⟨u0, hu0, e0⟩ := hatt
      obtain ⟨u1, hu1, e1⟩ := hatt'
      have hpos : 0 < hi := by
        have := hlo' u1 hu1
        rcases lt_or_eq_of_le (show 0 ≤ hi by linarith) with h | h
        · exact h
        · exact absurd h.symm h0
      refine ⟨⟨u0, hu0, u1, hu1, fun h => ?_⟩, _, rfl, by simp [hsh], ?_, ?_, ?_, ?_⟩
      · rw [← h] at e1; linarith
      · intro v hv
        simp only [hsh, List.map_map, List.mem_map] at hv
        obtain ⟨u, hu, rfl⟩ := hv
        have h1 := hlo' u hu
        have h2 := hhi' u hu
        exact ⟨div_nonneg (by linarith) hpos.le, (div_le_one hpos).2 h2⟩
      · simp only [hsh, List.map_map, List.mem_map]
        exact ⟨u0, hu0, by simp [e0]⟩
      · simp only [hsh, List.map_map, List.mem_map]
        exact ⟨u1, hu1, by simp [e1, h0]⟩
      · intro i j u v u' v' hu hv hu' hv'
        simp only [hsh, List.map_map, List.getElem?_map, hu, hv, Option.map_some, Option.some.injEq,
          Function.comp_apply] at hu' hv'
        rw [← hu', ← hv', div_lt_div_iff_of_pos_right hpos]
        constructor <;> intro h <;> linarith

example : ∃ u ∈ [(1 : ℝ), 2], ∃ v ∈ [(1 : ℝ), 2], u ≠ v := ⟨1, by simp, 2, by simp, by norm_num⟩

/-! ## C104: plotting the convergence -/

theorem consecutiveDistances_getElem (X : Mat) (i : Nat) (d : ℝ) :
    (consecutiveDistances X)[i]? = some d ↔ ∃ x x', X[i]? = some x ∧ X[i + 1]? = some x' ∧
      d = Real.sqrt ((List.zipWith (fun u v : ℚ => ((u : ℝ) - v) ^ 2) x' x).sum) := by
  unfold consecutiveDistances
  rw [List.getElem?_zipWith_eq_some]
  simp only [List.getElem?_drop, sum_sq_cast]
  constructor
  · rintro ⟨a, b, h1, h2, h3⟩
    exact ⟨b, a, h2, by rw [Nat.add_comm]; exact h1, h3.symm⟩
  · rintro ⟨x, x', h1, h2, h3⟩
    exact ⟨x', x, by rw [Nat.add_comm]; exact h2, h1, h3.symm⟩

/-- C104 (partial: data aligned before the run). After a completed run the convergence plot shows the
distances of consecutive locations, one less than locations, and the minima of the outputs so far, one per
location; and the last distance is at most `eps` exactly if the criterion of `eps` is met by the data. -/
theorem C104_convergence_partial (env : BOEnv) (a : RunArgs) (fuel : Nat) (s s' : BOState) (why : Stop)
    (hal : ∀ Y, s.Y = some Y → s.X.length = Y.length)
    (h : runOptimization env a fuel s = (s', .done why)) :
    ∃ ds ys Y, plotConvergence s'.X s'.results = .ok (ds, ys) ∧ s'.Y = some Y ∧
      ds.length = s'.X.length - 1 ∧ ys.length = s'.X.length ∧
      (∀ (i : Nat) (x x' : Vec), s'.X[i]? = some x → s'.X[i + 1]? = some x' →
        ds[i]? = some (Real.sqrt ((List.zipWith (fun u v : ℚ => ((u : ℝ) - v) ^ 2) x' x).sum))) ∧
      (∀ (i : Nat) (y : ℚ), ys[i]? = some y → IsMin (Y.take (i + 1)) y) ∧
      ((∃ d, ds.getLast? = some d ∧ d ≤ a.eps) ↔ CloseLast a.eps s'.X) := by
  obtain ⟨r, Y, i, hr, hY, -, -, -, -, hl, hmin, -, -⟩ := C39_reported_optimum env a fuel s s' why h
  have hlen : s'.X.length = Y.length := by
    obtain ⟨obj, Y0, new, bs, -, hc, hX, hY', hlb, -⟩ := run_data h
    rw [hY] at hY'
    cases hY'
    have : s.X.length = Y0.length := by
      rcases hc with ⟨h1, -⟩ | ⟨-, -, h1⟩
      · exact hal _ h1
      · exact h1.symm
    rw [hX]; simp [this, hlb]
  have hdl : (consecutiveDistances s'.X).length = s'.X.length - 1 := by
    unfold consecutiveDistances
    simp
  refine ⟨consecutiveDistances s'.X, r.yBest, Y, ?_, hY, hdl, by rw [hl, hlen], ?_, hmin, ?_⟩
  · unfold plotConvergence
    rw [hr]
    simp only [hl, hlen, if_true]
  · intro i x x' h1 h2
    exact (consecutiveDistances_getElem _ _ _).2 ⟨x, x', h1, h2, rfl⟩
  · rw [List.getLast?_eq_getElem?, hdl]
    constructor
    · rintro ⟨d, hd, hde⟩
      obtain ⟨x, x', h1, h2, rfl⟩ := (consecutiveDistances_getElem _ _ _).1 hd
      have hlt : s'.X.length - 1 - 1 + 1 < s'.X.length := (List.getElem?_eq_some_iff.1 h2).1
      refine ⟨s'.X.take (s'.X.length - 2), x, x', ?_, hde⟩
      have e1 : s'.X.length - 1 - 1 = s'.X.length - 2 := by omega
      rw [e1] at h1 h2 hlt
      have hdrop : s'.X.drop (s'.X.length - 2) = [x, x'] := by
        apply List.ext_getElem?
        intro k
        rw [List.getElem?_drop]
        match k with
        | 0 => rw [Nat.add_zero, h1]; rfl
        | 1 => rw [h2]; rfl
        | k + 2 =>
          rw [List.getElem?_eq_none (by omega)]; simp
      rw [← hdrop, List.take_append_drop]
    · rintro ⟨pre, b, c, hX, hc⟩
      refine ⟨_, (consecutiveDistances_getElem _ _ _).2 ⟨b, c, ?_, ?_, rfl⟩, hc⟩
      · rw [hX]; simp
      · rw [hX]; simp

/-- The hypotheses of `C104_convergence_partial` are met. -/
example : ((designSpace exLine none).map fun sp =>
      let r := runOptimization (exBO sp) { maxIter := some (.fin 2) } 10 (boInit [[0], [1]] (some [1, 2]) .none)
      (r.2, r.1.X, r.1.results.map Results.yBest))
    = .ok (.done .limit, [[0], [1], [1/3], [1/4]], some [1, 1, 1/144, 0]) := by decide +kernel

/-- C104 (negation of the full property). Before the first run the convergence plot raises, for every
object; and after a run in which the objective raised, the plot raises, also if there were completed
runs before. -/
theorem C104_convergence_counterexample :
    (∀ X, plotConvergence X none = .error .attributeError) ∧
    ∃ sp, designSpace exLine none = .ok sp ∧
      let r := runOptimization (exFail sp) { maxIter := some (.fin 0) } 10
        (boInit [[0], [1]] (some [1/16, 9/16]) .none)
      let r' := runOptimization (exFail sp) { maxIter := some (.fin 3) } 10 r.1
      r.2 = .done .limit ∧ r'.2 = .raised .objectiveError ∧
      plotConvergence r'.1.X r'.1.results = .error .valueError := by
  refine ⟨fun X => rfl, ?_⟩
  have hex : ((designSpace exLine none).map fun sp =>
      let r := runOptimization (exFail sp) { maxIter := some (.fin 0) } 10
        (boInit [[0], [1]] (some [1/16, 9/16]) .none)
      let r' := runOptimization (exFail sp) { maxIter := some (.fin 3) } 10 r.1
      (r.2, r'.2, r'.1.X.length, r'.1.results.map fun r => r.yBest.length))
    = .ok (.done .limit, .raised .objectiveError, 3, some 2) := by decide +kernel
  cases hsp : designSpace exLine none with
  | error e => rw [hsp] at hex; simp [Except.map] at hex
  | ok sp =>
    rw [hsp] at hex
    simp only [Except.map, Except.ok.injEq, Prod.mk.injEq] at hex
    obtain ⟨e1, e2, e3, e4⟩ := hex
    refine ⟨sp, rfl, e1, e2, ?_⟩
    generalize runOptimization (exFail sp) { maxIter := some (.fin 3) } 10
      (runOptimization (exFail sp) { maxIter := some (.fin 0) } 10
        (boInit [[0], [1]] (some [1/16, 9/16]) .none)).1 = r' at e3 e4
    unfold plotConvergence
    cases hr : r'.1.results with
    | none => rw [hr] at e4; simp at e4
    | some q =>
      rw [hr] at e4
      simp only [Option.map_some, Option.some.injEq] at e4
      simp only [e4, e3]
      rfl

end GPyOpt.Props
