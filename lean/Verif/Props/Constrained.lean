import Verif.Props.NoRaise
import Verif.Props.Thompson
import Verif.Props.RandomSearch
import Verif.Lemmas.Feasible

/-!
# Suggestions in constrained spaces (C28, C118, C140)
-/

namespace GPyOpt.Props

open GPyOpt Spec

/-- The space of the variables that the context leaves free, with the constraints of the full space. -/
def FreeSpace (sp : Space) (c : Ctx) (sp' : Space) : Prop :=
  ∃ ds, mapE (npGet sp.configExpanded) c.nocontextIndexObj = .ok ds ∧ designSpace ds sp.constraints = .ok sp'

/-- If feasible rows keep being sampled, the samples are found. -/
theorem samplesFound_of_feasible {config : List Desc} {cs : List ConstrDict} {sp : Space}
    (h : designSpace config (some cs) = .ok sp) (hb : sp.hasBandit = false) (hs : ∀ k ∈ kindsOf config, Samplable k)
    {context : Option Context} {c : Ctx} (hc : contextManager sp context = .ok c)
    (hev : Evaluable c.nocontextIndexObj.length cs) (o : DesignOracle) (hu : ∀ i, UnitDraw (o.draws i)) (n : Nat)
    (hfeas : ∀ sp', FreeSpace sp c sp' → ∀ i, ∃ j ≥ i, ∃ row, SampledIn sp' o n j row ∧ Feasible cs row) :
    ∃ fuel, SamplesFound sp c "random" n { o with fuel := fuel } := by
  obtain ⟨_, -, -, -, -, -, hcs⟩ := designSpace_ok h
  obtain ⟨vs, es, hcok⟩ := contextManager_ok hc
  obtain ⟨ds, sp', a0, -, a2, a3, a4⟩ := anchorSpace_descs h hb hc
  have hlen : sp'.kinds.length = c.nocontextIndexObj.length := by
    have h2 := mapE_length (mapE_npGet_filter_range (freePos c) sp.configExpanded)
    have h3 : c.nocontextIndexObj = (List.range sp.configExpanded.length).filter (freePos c) := hcok.freeObj
    rw [a4, h3, ← h2]
    exact keep_length _ _ _ _ (by simpa using (expandConfig_good h hb).length_eq.symm)
  have a2' := a2
  rw [hcs, Option.map_some] at a2'
  obtain ⟨fuel, m, hm⟩ := C16_feasible_returns a2' a3
    (by
      rw [← space_kinds_eq a2, a4]
      intro k hk
      exact hs k (space_kinds_eq h ▸ (keep_sublist _ _ _).subset hk))
    o hu n
    (by
      rw [hlen]
      intro c1 hc1
      obtain ⟨c0, hc0, rfl⟩ := List.mem_map.1 hc1
      rw [constraintOf_fixConstr]
      exact hev c0 hc0)
    (fun i => by
      obtain ⟨j, hj, row, h1, h2⟩ := hfeas sp' ⟨ds, a0, a2⟩ i
      exact ⟨j, hj, row, h1, (feasible_fixConstr cs row).2 h2⟩)
  exact ⟨fuel, ds, sp', m, a0, a2, hm⟩

/-- The environment with a number of sampling rounds. -/
def withRounds (env : EvalEnv) (fuel : Nat) : EvalEnv :=
  { env with oracle := { env.oracle with acq := { env.oracle.acq with design := { env.oracle.acq.design with fuel := fuel } } } }

/-- **C28, liveness in a constrained space.** Any context; the constraints can be evaluated at the values of the free variables, and
rows that satisfy them keep being sampled. With components that do not raise, the sampling ends after finitely many rounds with a
suggestion, or (only with de-duplication) the domain is reported as fully explored. -/
theorem C28_constrained_suggestion_exists {config : List Desc} {cs : List ConstrDict} {sp : Space}
    (h : designSpace config (some cs) = .ok sp) (hb : sp.hasBandit = false)
    (hs : ∀ k ∈ kindsOf config, Samplable k) (hvar : kindsOf config ≠ [])
    (context : Option Context) (hg : ValidContext sp context) (c : Ctx) (hc : contextManager sp context = .ok c)
    (hev : Evaluable c.nocontextIndexObj.length cs) (env : EvalEnv)
    (hop : GoodOptions env.op) (hname : env.op.optimizerName ∈ ["lbfgs", "DIRECT", "CMA"])
    (hlog : env.op.anchorLogic = "max_objective")
    (ho : GoodAcq env.oracle.acq) (hf : ∀ x, ∃ v, env.f x = .ok v)
    (hopt : ∀ k g x, ∃ y, env.oracle.acq.opt k g x = .ok y)
    (hfeas : ∀ sp', FreeSpace sp c sp' → ∀ i, ∃ j ≥ i, ∃ row,
      SampledIn sp' env.oracle.acq.design env.op.numSamplesObjective j row ∧ Feasible cs row) :
    ∃ fuel, ∀ (deDup : Bool) (X : Mat) (pending ignored : Option Mat),
      (∃ z, computeNext .sequential (withRounds env fuel) sp context deDup X pending ignored = .ok [z]) ∨
        (deDup = true ∧
          computeNext .sequential (withRounds env fuel) sp context deDup X pending ignored = .error .fullyExplored) := by
  obtain ⟨fuel, hfound⟩ := samplesFound_of_feasible h hb hs hc hev env.oracle.acq.design ho.unit.draws _ hfeas
  refine ⟨fuel, fun deDup X pending ignored => ?_⟩
  -- the scores of Thompson sampling are not used
  let env' : EvalEnv := { withRounds env fuel with
    oracle := { (withRounds env fuel).oracle with
      acq := { (withRounds env fuel).oracle.acq with thompson := fun X => .ok (X.map fun _ => 0) } } }
  have heq : computeNext .sequential (withRounds env fuel) sp context deDup X pending ignored =
      computeNext .sequential env' sp context deDup X pending ignored := by
    have hl : (withRounds env fuel).op.anchorLogic = "max_objective" := hlog
    have hl' : env'.op.anchorLogic = "max_objective" := hlog
    unfold computeNext
    simp only [hc, computeBatch, sequentialBatch]
    unfold acqOptimize acqAnchors
    simp only [hl, hl', if_true]
    rfl
  rw [heq]
  refine C28_suggestion_exists h hb hs hvar context hg env' hop hname (by simp [env', withRounds, hlog]) ?_ hf hopt
    (fun X => ⟨_, rfl⟩) deDup X (.inr ?_) pending ignored
  · refine ⟨⟨ho.unit.draws, ho.unit.lhs, ho.unit.sobol⟩, ho.argsort, ?_, ho.opt⟩
    intro X s hX
    simp only [env', Except.ok.injEq] at hX
    subst hX
    simp
  · intro c' hc'
    rw [hc] at hc'
    cases hc'
    exact ⟨hlog, hfound⟩

/-- **C118 (negation of the full property).** In a constrained space the anchor points by Thompson sampling, an advertised option of
the acquisition optimizer, are never found, however easy the constraints: they are taken from a Sobol design, which refuses
constraints (C17). -/
theorem C118_constraints_refused {config : List Desc} {cs : List ConstrDict} {sp : Space}
    (h : designSpace config (some cs) = .ok sp) (hb : sp.hasBandit = false) (env : EvalEnv)
    (hlog : env.op.anchorLogic = "thompson_sampling") (hname : env.op.optimizerName ∈ ["lbfgs", "DIRECT", "CMA"])
    (context : Option Context) (c : Ctx) (hc : contextManager sp context = .ok c)
    (deDup : Bool) (X : Mat) (pending ignored : Option Mat) :
    computeNext .sequential env sp context deDup X pending ignored = .error .invalidConfig := by
  obtain ⟨_, -, -, -, -, -, hcs⟩ := designSpace_ok h
  obtain ⟨ds, sp', -, a1, a2, -⟩ := anchorSpace_descs h hb hc
  rw [hcs, Option.map_some] at a2
  have hd := fun n => C17_constraints_refused a2 env.oracle.acq.design n "sobol" (by simp)
  unfold computeNext
  simp only [hc, computeBatch, sequentialBatch]
  unfold acqOptimize acqAnchors
  simp only [hlog, show ("thompson_sampling" = "max_objective") = False from by simp, if_false, if_true]
  simp only [anchorPoints, anchorSamples, a1, hd]
  simp only [List.mem_cons, List.not_mem_nil, or_false] at hname
  rcases hname with hn | hn | hn <;> simp [hn, chooseOptimizer]

/-- the constraint `x <= 2` -/
def exAtMostTwo : List ConstrDict := [{ constraint := some fun r => .ok (r.headD 0 - 2) }]

/-- The hypotheses of C140 on the designs are met in a constrained space, by every evaluator. -/
example {sp : Space} (h : designSpace (exGrid 4) (some exAtMostTwo) = .ok sp) {c : Ctx} (hc : contextManager sp none = .ok c)
    (ev : Evaluator) : DesignsFound sp c exEnv ev := by
  have key : ∀ n, n = 4 ∨ n = 6 → SamplesFound sp c "random" n exOracle := by
    intro n hn
    have h1 : ∃ m, ((designSpace (exGrid 4) (some exAtMostTwo)).bind fun sp => (contextManager sp none).bind fun c =>
        (mapE (npGet sp.configExpanded) c.nocontextIndexObj).bind fun ds =>
        (designSpace ds sp.constraints).bind fun sp' => initialDesign "random" sp' exOracle n) = .ok m := by
      rcases hn with rfl | rfl
      · exact ⟨[[0], [1], [2], [1]], by decide +kernel⟩
      · exact ⟨[[0], [1], [2], [0], [1], [1]], by decide +kernel⟩
    obtain ⟨m, hm⟩ := h1
    simp only [h, hc, Except.bind] at hm
    cases h2 : mapE (npGet sp.configExpanded) c.nocontextIndexObj with
    | error e => rw [h2] at hm; cases hm
    | ok ds =>
      rw [h2] at hm
      simp only at hm
      cases h3 : designSpace ds sp.constraints with
      | error e => rw [h3] at hm; cases hm
      | ok sp' =>
        rw [h3] at hm
        exact ⟨ds, sp', m, h2, h3, hm⟩
  cases ev with
  | sequential => exact ⟨rfl, key 4 (.inl rfl)⟩
  | random n => exact ⟨⟨rfl, key 4 (.inl rfl)⟩, key 6 (.inr rfl)⟩
  | thompson n => exact key 6 (.inr rfl)
  | localPenalization n => exact fun k => ⟨rfl, key 4 (.inl rfl)⟩

/-- The locations sampled satisfy the constraint, and so do the suggestions here; in the fourth round the domain is reported as fully
explored (although the value 3 has not been evaluated). -/
example : ((designSpace (exGrid 4) (some exAtMostTwo)).map fun sp =>
      let r := runOptimization (exFussy sp .sequential true) { maxIter := some (.fin 5), maxTime := none, eps := -1 } 10
        (boInit [[0]] none (.str "evaluation_time"))
      (r.2, r.1.X))
    = .ok (.raised .fullyExplored, [[0], [1], [2]]) := by
  decide +kernel

example : ((designSpace (exGrid 4) (some exAtMostTwo)).bind fun sp =>
    computeNext .sequential { exEnv with op := { exEnv.op with anchorLogic := "thompson_sampling" } } sp none true [[0]] none none)
    = .error .invalidConfig := by decide +kernel

end GPyOpt.Props
