import Verif.Model.Parts
import Verif.Props.Constructor
import Verif.Props.Shared

/-!
# C161: model and acquisition objects passed to an optimizer
-/

namespace GPyOpt.Props

open GPyOpt Spec

/-! ## Which objects are used -/

/-- Decomposition of the choice of the components. -/
theorem chooseParts_ok {a : BayesArgs} {gm : Given ModelPart} {ga : Given AcqPart} {made : MadeParts} {p : Parts}
    (h : chooseParts a gm ga made = .ok p) :
    p.model = (chooseModelPart a.modelType gm made).1.map ModelPart.ref ∧
    p.modelType = (chooseModelPart a.modelType gm made).2 ∧
    chooseAcqPart a.acqType (chooseModelPart a.modelType gm made).1 ga made = .ok p.acq ∧
    evaluatorCreator a.evaluatorType p.acq.base.isSome a.batchSize p.modelType = .ok p.evaluator ∧
    ((p.evaluator ≠ some .localPenalization ∧ p.penalized = none) ∨
      p.evaluator = some .localPenalization ∧ ∃ mp, (chooseModelPart a.modelType gm made).1 = some mp ∧
        p.penalized = some { model := mp.ref, optimizer := some made.optimizer, base := some p.acq.valueModel }) := by
  unfold chooseParts at h
  simp only at h
  cases hq : chooseAcqPart a.acqType (chooseModelPart a.modelType gm made).1 ga made with
  | error e => rw [hq] at h; simp at h
  | ok q =>
    rw [hq] at h
    simp only at h
    cases he : evaluatorCreator a.evaluatorType q.base.isSome a.batchSize (chooseModelPart a.modelType gm made).2 with
    | error e => rw [he] at h; simp at h
    | ok ev =>
      rw [he] at h
      simp only at h
      by_cases hl : ev = some .localPenalization
      · rw [if_pos hl] at h
        cases hm : (chooseModelPart a.modelType gm made).1 with
        | none => rw [hm] at h; simp at h
        | some mp =>
          rw [hm] at h
          simp only [Except.ok.injEq] at h
          subst h
          exact ⟨rfl, rfl, rfl, he, .inr ⟨hl, mp, rfl, rfl⟩⟩
      · rw [if_neg hl] at h
        simp only [Except.ok.injEq] at h
        subst h
        exact ⟨rfl, rfl, rfl, he, .inl ⟨hl, rfl⟩⟩

/-- **C161.** A model object is the model of the optimizer and of the acquisition that is created, an acquisition object is the
acquisition; without objects, or with a keyword that holds something else (such as the deprecated `acquisition='LCB'`), the components
are chosen by the other arguments, without a message. -/
theorem C161_objects_used {a : BayesArgs} {gm : Given ModelPart} {ga : Given AcqPart} {made : MadeParts} {p : Parts}
    (h : chooseParts a gm ga made = .ok p) :
    (∀ m, gm = .object m → p.model = some m.ref) ∧
    ((∀ m, gm ≠ .object m) → p.model = (modelCreator a.modelType).map fun _ => made.model) ∧
    (∀ q, ga = .object q → p.acq = q) ∧
    ((∀ q, ga ≠ .object q) → p.model = some p.acq.model ∧ p.acq.base = none ∧ p.acq.optimizer = some made.optimizer ∧
      ∃ spec, acquisitionCreator a.acqType none none = .ok spec) := by
  obtain ⟨h1, -, h3, -, -⟩ := chooseParts_ok h
  refine ⟨?_, ?_, ?_, ?_⟩
  · rintro m rfl
    rw [h1]; rfl
  · intro hn
    rw [h1]
    cases gm with
    | object m => exact absurd rfl (hn m)
    | absent => simp [chooseModelPart, Function.comp_def]
    | other => simp [chooseModelPart, Function.comp_def]
  · rintro q rfl
    simp only [chooseAcqPart, Except.ok.injEq] at h3
    exact h3.symm
  · intro hn
    have hk : acqPartOfName a.acqType (chooseModelPart a.modelType gm made).1 made = .ok p.acq := by
      cases ga with
      | object q => exact absurd rfl (hn q)
      | absent => exact h3
      | other => exact h3
    unfold acqPartOfName at hk
    cases ha : acquisitionCreator a.acqType none none with
    | error e => rw [ha] at hk; simp at hk
    | ok b =>
      rw [ha] at hk
      cases hm : (chooseModelPart a.modelType gm made).1 with
      | none => rw [hm] at hk; simp at hk
      | some m =>
        rw [hm] at hk h1
        simp only at hk
        split at hk
        · simp at hk
        · simp only [Except.ok.injEq] at hk
          rw [← hk]
          exact ⟨h1, rfl, rfl, b, rfl⟩

/-- Without objects these are the components of the constructor (`bayesConstruct`). -/
theorem C161_by_name (a : BayesArgs) (made : MadeParts) :
    (chooseParts a .absent .absent made).map (fun p => p.evaluator) =
      (match chooseModelAcq a.modelType a.acqType none none with
        | .error e => .error e
        | .ok _ => evaluatorCreator a.evaluatorType false a.batchSize a.modelType) := by
  unfold chooseParts chooseModelAcq acqInit chooseAcqPart chooseModelPart acqPartOfName
  simp only
  cases acquisitionCreator a.acqType none none with
  | error e => rfl
  | ok b =>
    cases modelCreator a.modelType with
    | none => rfl
    | some k =>
      simp only [Option.map_some]
      by_cases hc : (b.kind = .eiMCMC ∨ b.kind = .mpiMCMC ∨ b.kind = .lcbMCMC) ∧ k.mcmc = false
      · rw [if_pos hc, if_pos hc]
        rfl
      · rw [if_neg hc, if_neg hc]
        simp only [Option.isSome_none]
        cases evaluatorCreator a.evaluatorType false a.batchSize a.modelType with
        | error e => rfl
        | ok ev =>
          simp only
          by_cases hl : ev = some .localPenalization
          · rw [if_pos hl]; rfl
          · rw [if_neg hl]; rfl

/-! ## Suggestions come from the model that is fitted -/

/-- The objects fit together: no acquisition object, or one that has the model object as its model and an optimizer. -/
def Matching (gm : Given ModelPart) (ga : Given AcqPart) : Prop :=
  (∀ q, ga ≠ .object q) ∨
    ∃ m q, gm = .object m ∧ ga = .object q ∧ q.model = m.ref ∧ q.valueModel = m.ref ∧ q.optimizer.isSome

/-- **C161** for the data: if the objects fit together, every suggestion is computed from the data of the last fit of the
loop, and respects the context of the call; it is the suggestion that `stdSuggest` describes. The full statement (any
objects) is false, see below. -/
theorem C161_fitted_partial {a : BayesArgs} {gm : Given ModelPart} {ga : Given AcqPart} {made : MadeParts} {p : Parts}
    (h : chooseParts a gm ga made = .ok p) (hm : Matching gm ga) (ev : EvalKind) (hev : p.evaluator = some ev)
    (n : Nat) (init : Ref → Option Fit) (mk : Option Fit → Option Fit → BOState → EvalEnv) (sp : Space) (deDup : Bool) :
    ∃ r, p.model = some r ∧ p.acq.model = r ∧
      partsSuggest p n init mk sp deDup =
        stdSuggest sp (ev.ofSize n) (fun s => mk (s.fits.getLast?.or (init r)) (s.fits.getLast?.or (init r)) s) deDup := by
  obtain ⟨o1, -, o3, o4⟩ := C161_objects_used h
  obtain ⟨h1, h2, -, h4, h5⟩ := chooseParts_ok h
  have hr : ∃ r o, p.model = some r ∧ p.acq.model = r ∧ p.acq.valueModel = r ∧ p.acq.optimizer = some o ∧
      (p.penalized = none ∨ ∃ l, p.penalized = some l ∧ l.model = r ∧ l.valueModel = r ∧ l.optimizer = some o) := by
    rcases hm with hn | ⟨m, q, rfl, rfl, q1, q2, q3⟩
    · obtain ⟨a1, a2, a3, -⟩ := o4 hn
      refine ⟨p.acq.model, made.optimizer, a1, rfl, by simp [AcqPart.valueModel, a2], a3, ?_⟩
      rcases h5 with ⟨-, h5⟩ | ⟨-, mp, hmp, h5⟩
      · exact .inl h5
      · refine .inr ⟨_, h5, ?_, by simp [AcqPart.valueModel, a2], rfl⟩
        rw [hmp, a1] at h1
        simpa using h1.symm
    · have hq := o3 q rfl
      obtain ⟨o, ho⟩ := Option.isSome_iff_exists.mp q3
      refine ⟨m.ref, o, o1 m rfl, by rw [hq, q1], by rw [hq, q2], by rw [hq, ho], .inl ?_⟩
      rcases h5 with ⟨-, h5⟩ | ⟨hl, -⟩
      · exact h5
      · rw [h2, hl] at h4
        simp [evaluatorCreator, chooseModelPart] at h4
        grind
  obtain ⟨r, o, r1, r2, r3, r4, r5⟩ := hr
  refine ⟨r, r1, r2, ?_⟩
  funext s pending ignored
  unfold partsSuggest stdSuggest
  have hfit : p.fitOf init s r = s.fits.getLast?.or (init r) := by simp [Parts.fitOf, r1]
  cases hc : contextManager sp s.context with
  | error e => simp [computeNext, hc]
  | ok c =>
    simp only [r4, hev]
    rcases r5 with r5 | ⟨l, r5, l1, l2, l3⟩
    · simp only [r5, Option.getD_none, r2, r3, hfit, r4, if_true]
    · simp only [r5, Option.getD_some, l1, l2, hfit, l3, if_true]

/-- The evaluator that the documentation promises for a name and a batch size. -/
inductive NamedEvaluator : Option String → Nat → Evaluator → Prop
  | single (t) : NamedEvaluator t 1 .sequential
  | sequential (n) : NamedEvaluator (some "sequential") n .sequential
  | random (n) : 2 ≤ n → NamedEvaluator (some "random") n (.random n)
  | default (n) : 2 ≤ n → NamedEvaluator none n (.random n)
  | thompson (n) : 2 ≤ n → NamedEvaluator (some "thompson_sampling") n (.thompson n)
  | penalized (n) : 2 ≤ n → NamedEvaluator (some "local_penalization") n (.localPenalization n)

/-- **C161** for the evaluator: if the objects fit together, suggestions are those of the evaluator of that name with the batch
size of the constructor, computed from the data of the last fit. -/
theorem C161_named_evaluator_partial {a : BayesArgs} {gm : Given ModelPart} {ga : Given AcqPart} {made : MadeParts} {p : Parts}
    (h : chooseParts a gm ga made = .ok p) (hm : Matching gm ga) (ev : Evaluator)
    (hev : NamedEvaluator a.evaluatorType a.batchSize ev)
    (init : Ref → Option Fit) (mk : Option Fit → Option Fit → BOState → EvalEnv) (sp : Space) (deDup : Bool) :
    ∃ r, p.model = some r ∧ partsSuggest p a.batchSize init mk sp deDup =
      stdSuggest sp ev (fun s => mk (s.fits.getLast?.or (init r)) (s.fits.getLast?.or (init r)) s) deDup := by
  obtain ⟨-, -, -, h4, -⟩ := chooseParts_ok h
  have key : ∃ k, p.evaluator = some k ∧ k.ofSize a.batchSize = ev := by
    generalize a.evaluatorType = t at hev h4
    generalize a.batchSize = n at hev h4
    cases hev with
    | single =>
      simp only [evaluatorCreator, Nat.cast_one, true_or, if_true, Except.ok.injEq] at h4
      exact ⟨_, h4.symm, rfl⟩
    | sequential =>
      simp only [evaluatorCreator, or_true, if_true, Except.ok.injEq] at h4
      exact ⟨_, h4.symm, rfl⟩
    | random hn | default hn | thompson hn =>
      have h1 : ¬ (n : Int) = 1 := by omega
      have h2 : (1 : Int) < n := by omega
      simp [evaluatorCreator, h1, h2] at h4
      exact ⟨_, h4.symm, rfl⟩
    | penalized hn =>
      have h1 : ¬ (n : Int) = 1 := by omega
      simp only [evaluatorCreator, h1] at h4
      simp at h4
      split_ifs at h4
      simp only [Except.ok.injEq] at h4
      exact ⟨_, h4.symm, rfl⟩
  obtain ⟨k, hk, rfl⟩ := key
  obtain ⟨r, r1, -, r3⟩ := C161_fitted_partial h hm k hk a.batchSize init mk sp deDup
  exact ⟨r, r1, r3⟩

/-! ## An acquisition with a model of its own -/

/-- Optimization of a function that raises everywhere does not return. -/
theorem applyOptimizer_raises {sp : Space} {ctx : Option Ctx} {dup : Option DupMgr} {opt : (Vec → Py ℚ) → Vec → Py Vec}
    {f : Vec → Py ℚ} (hf : ∀ x v, f x ≠ .ok v) (x0 : Vec) (r : Vec × ℚ) : applyOptimizer sp ctx dup opt f x0 ≠ .ok r := by
  intro h
  unfold applyOptimizer at h
  repeat' split at h
  all_goals first
    | (simp at h; done)
    | (rename_i hv; exact hf _ _ hv)

theorem acqOptimize_raises {sp : Space} {ctx : Ctx} {dup : Option DupMgr} {op : AcqOptions} {o : AcqOracle}
    {f : Vec → Py ℚ} (hf : ∀ x v, f x ≠ .ok v) (r : Vec × ℚ) : acqOptimize sp ctx dup op o f ≠ .ok r := by
  intro h
  unfold acqOptimize at h
  repeat' split at h
  all_goals try (simp at h; done)
  rename_i hp _ _ _
  have hmem := List.mem_of_getElem? (npGet_ok.mp h)
  obtain ⟨ka, -, hka⟩ := mapE_ok_mem hp hmem
  exact applyOptimizer_raises hf _ _ hka

theorem batchLoop_raises {sp : Space} {opt : Nat → Vec → Py Vec} (ho : ∀ k x y, opt k x ≠ .ok y) {n k : Nat} {as : Mat}
    {batch : Mat} {seen : List Vec} {b : Mat} (h : batchLoop sp opt n k as batch seen = .ok b) : b = batch := by
  cases as with
  | nil => simpa [batchLoop] using h.symm
  | cons x as =>
    unfold batchLoop at h
    split at h
    · simp at h
    · rename_i hv; exact absurd hv (ho _ _ _)

theorem thompsonOptimize_raises {sp : Space} {ctx : Ctx} {dup : Option DupMgr} {o : AcqOracle}
    {f : Vec → Py ℚ} (hf : ∀ x v, f x ≠ .ok v) (k : Nat) (x y : Vec) : thompsonOptimize sp ctx dup o f k x ≠ .ok y := by
  intro h
  unfold thompsonOptimize at h
  split at h
  · simp at h
  · rename_i hv; exact applyOptimizer_raises hf _ _ hv

/-- Whatever the evaluator, nothing is suggested with an acquisition function that raises everywhere. -/
theorem computeNext_raises {ev : Evaluator} {env : EvalEnv} (hf : ∀ x v, env.f x ≠ .ok v)
    (hl : ∀ s x v, env.fLP s x ≠ .ok v) {sp : Space} {context : Option Context} {deDup : Bool} {X : Mat}
    {pending ignored : Option Mat} (m : Mat) : computeNext ev env sp context deDup X pending ignored ≠ .ok m := by
  intro h
  unfold computeNext at h
  split at h
  · simp at h
  · rename_i ctx hc
    simp only at h
    split at h
    · simp at h
    · rename_i b hb
      revert hb
      generalize (if deDup = true then some (dupMgr X pending ignored) else none) = dup
      intro hb
      cases ev with
      | sequential =>
        simp only [computeBatch, sequentialBatch] at hb
        split at hb
        · simp at hb
        · rename_i hv; exact acqOptimize_raises hf _ hv
      | random n =>
        simp only [computeBatch, randomBatch] at hb
        cases dup with
        | none =>
          simp only at hb
          split at hb
          · simp at hb
          · rename_i hv; exact acqOptimize_raises hf _ hv
        | some dm =>
          simp only [dedupBatch] at hb
          split at hb
          · simp at hb
          · cases ha : acqOptimize sp ctx (some dm) env.op env.oracle.acq env.f with
            | ok r => exact acqOptimize_raises hf _ ha
            | error e => rw [ha] at hb; simp [Except.map] at hb
      | thompson n =>
        simp only [computeBatch, thompsonBatch] at hb
        cases dup with
        | none =>
          simp only at hb
          split at hb
          · simp at hb
          · rename_i as _
            split at hb
            · simp at hb
            · rename_i bs hbs
              cases bs with
              | nil => simp [vstack] at hb
              | cons x xs =>
                obtain ⟨ka, -, hka⟩ := mapE_ok_mem hbs (List.mem_cons_self)
                exact thompsonOptimize_raises hf _ _ _ hka
        | some dm =>
          simp only [dedupBatch] at hb
          split at hb
          · simp at hb
          · split at hb
            · simp at hb
            · rename_i bs hbs
              rw [batchLoop_raises (thompsonOptimize_raises hf) hbs] at hb
              simp [vstack] at hb
      | localPenalization n =>
        simp only [computeBatch, lpBatch] at hb
        cases ha : acqOptimize sp ctx none env.op (env.acqLP 0) (env.fLP (env.lpState.update none none)) with
        | ok r => exact acqOptimize_raises (hl _) _ ha
        | error e => rw [ha] at hb; simp [Except.map] at hb

/-- Negation of C161 for the data: an acquisition object without its model. The loop fits a model of its own, and suggestions
do not depend on what it was fitted to, whatever the model of the acquisition was fitted to before. -/
theorem C161_own_model_counterexample {a : BayesArgs} {q : AcqPart} {made : MadeParts} {p : Parts}
    (h : chooseParts a .absent (.object q) made = .ok p) (hlp : p.evaluator ≠ some .localPenalization)
    (hfresh : q.model ≠ made.model ∧ q.valueModel ≠ made.model) (n : Nat) (init : Ref → Option Fit)
    (mk : Option Fit → Option Fit → BOState → EvalEnv) (hmk : ∀ v w s L, mk v w (withFits L s) = mk v w s)
    (sp : Space) (deDup : Bool) (s : BOState) (pending ignored : Option Mat) (L : List Fit) :
    partsSuggest p n init mk sp deDup (withFits L s) pending ignored = partsSuggest p n init mk sp deDup s pending ignored := by
  obtain ⟨-, o2, o3, -⟩ := C161_objects_used h
  obtain ⟨-, -, -, -, h5⟩ := chooseParts_ok h
  have hq := o3 q rfl
  have hm := o2 (by simp)
  have hpen : p.penalized = none := by
    rcases h5 with ⟨-, h5⟩ | ⟨hl, -⟩
    · exact h5
    · exact absurd hl hlp
  have hfit : ∀ r, r ≠ made.model → ∀ t : BOState, p.fitOf init t r = init r := by
    intro r hr t
    unfold Parts.fitOf
    rw [if_neg]
    rw [hm]
    cases modelCreator a.modelType with
    | none => simp
    | some k => simpa using Ne.symm hr
  unfold partsSuggest
  simp only [hpen, Option.getD_none, hq, hfit _ hfresh.1, hfit _ hfresh.2, hmk]
  rfl

/-- Negation of C161 for the data, from construction on: if the model of the acquisition object was never fitted (a model
without data raises, as `None` has no method `predict`), no call of any history gets a suggestion, and the objective is called
at given locations only. -/
theorem C161_never_fitted_counterexample {a : BayesArgs} {q : AcqPart} {made : MadeParts} {p : Parts}
    (h : chooseParts a .absent (.object q) made = .ok p) (hfresh : q.valueModel ≠ made.model) (n : Nat)
    (init : Ref → Option Fit) (hinit : init q.valueModel = none) (mk : Option Fit → Option Fit → BOState → EvalEnv)
    (hmk : ∀ w s, (∀ x v, (mk none w s).f x ≠ .ok v) ∧ ∀ l x v, (mk none w s).fLP l x ≠ .ok v) (deDup : Bool)
    (env : BOEnv) (hsug : env.suggest = partsSuggest p n init mk env.sp deDup) :
    (∀ s pending ignored m, env.suggest s pending ignored ≠ .ok m) ∧
    ∀ (ops : List Op) (X : Mat) (Y : Option Vec) (cost : CostArg),
      ∀ c ∈ (afterAll env ops (boInit X Y cost)).world.calls, c.1 ∈ X := by
  obtain ⟨-, o2, o3, -⟩ := C161_objects_used h
  obtain ⟨-, -, -, -, h5⟩ := chooseParts_ok h
  have hq := o3 q rfl
  have hm := o2 (by simp)
  have hval : (p.penalized.getD p.acq).valueModel = q.valueModel := by
    rcases h5 with ⟨-, h5⟩ | ⟨-, mp, -, h5⟩
    · rw [h5, Option.getD_none, hq]
    · rw [h5, Option.getD_some, hq]; rfl
  have hfit : ∀ t : BOState, p.fitOf init t q.valueModel = none := by
    intro t
    unfold Parts.fitOf
    rw [if_neg, hinit]
    rw [hm]
    cases modelCreator a.modelType with
    | none => simp
    | some k => simpa using Ne.symm hfresh
  have hno : ∀ s pending ignored m, env.suggest s pending ignored ≠ .ok m := by
    intro s pending ignored m he
    rw [hsug] at he
    unfold partsSuggest at he
    split at he
    · simp at he
    · split at he
      · simp at he
      · simp at he
      · simp only [hval, hfit] at he
        exact computeNext_raises (hmk _ _).1 (hmk _ _).2 m he
  refine ⟨hno, ?_⟩
  intro ops X Y cost
  have key : ∀ (ops : List Op) (s : BOState), Inside (· ∈ X) s → Inside (· ∈ X) (afterAll env ops s) := by
    intro ops
    induction ops with
    | nil => intro s hs; exact hs
    | cons op ops ih =>
      intro s hs
      refine ih _ ?_
      cases op with
      | suggest c p i =>
        obtain ⟨ps, fs, hfr⟩ := suggest_frame (env := env) (c := c) (p := p) (i := i) (s := s)
        simp only [Op.after, hfr]
        exact ⟨hs.calls, hs.rows⟩
      | run a fuel =>
        exact run_inside (P := fun _ => True) (fun s m _ hm => absurd hm (hno s none none m)) a trivial fuel hs
  exact (key ops _ ⟨by simp [boInit], by simp [boInit]⟩).calls

/-! ## Refusals -/

/-- Negation of C161: with a model object, also one of the Gaussian process classes, local penalization is refused. -/
theorem C161_local_penalization_counterexample (a : BayesArgs) (hb : 2 ≤ a.batchSize)
    (he : a.evaluatorType = some "local_penalization") (m : ModelPart) (ga : Given AcqPart) (made : MadeParts) (p : Parts) :
    chooseParts a (.object m) ga made ≠ .ok p := by
  intro h
  obtain ⟨-, h2, -, h4, -⟩ := chooseParts_ok h
  rw [h2, he] at h4
  have hb1 : ¬ (a.batchSize : Int) = 1 := by omega
  simp [evaluatorCreator, chooseModelPart, hb1] at h4

/-- Negation of C161: a penalized acquisition object (the acquisition that local penalization needs) together with local
penalization is a failure of the constructor. -/
theorem C161_penalized_object_counterexample (a : BayesArgs) (hb : 2 ≤ a.batchSize)
    (he : a.evaluatorType = some "local_penalization")
    (hm : a.modelType ∈ ["GP", "sparseGP", "GP_MCMC", "warpedGP"]) (q : AcqPart) (hq : q.base.isSome) (made : MadeParts) :
    chooseParts a .absent (.object q) made = .error .unboundLocal := by
  have hb1 : ¬ (a.batchSize : Int) = 1 := by omega
  have hm' : a.modelType = "GP" ∨ a.modelType = "sparseGP" ∨ a.modelType = "GP_MCMC" ∨ a.modelType = "warpedGP" := by
    simpa using hm
  simp [chooseParts, chooseModelPart, chooseAcqPart, evaluatorCreator, he, hb1, hq, hm']

/-- Negation of C161: an acquisition object without optimizer, which the classes allow (`optimizer=None`), never suggests: it
is an `AttributeError`, unless the context is refused before. -/
theorem C161_no_optimizer_counterexample {a : BayesArgs} {gm : Given ModelPart} {q : AcqPart} {made : MadeParts} {p : Parts}
    (h : chooseParts a gm (.object q) made = .ok p) (hq : q.optimizer = none) (n : Nat) (init : Ref → Option Fit)
    (mk : Option Fit → Option Fit → BOState → EvalEnv) (sp : Space) (deDup : Bool) (s : BOState)
    (pending ignored : Option Mat) :
    partsSuggest p n init mk sp deDup s pending ignored =
      match contextManager sp s.context with
      | .error e => .error e
      | .ok _ => .error .attributeError := by
  have ha := (C161_objects_used h).2.2.1 q rfl
  unfold partsSuggest
  rw [ha, hq]
  cases contextManager sp s.context <;> rfl

/-! ## Examples -/

/-- An acquisition that raises without data, and otherwise prefers locations near the number of rows. -/
def partsEnv (v w : Option Fit) (_ : BOState) : EvalEnv :=
  { exEnv with
    f := fun x => match v with
      | none => .error .attributeError
      | some d => .ok ((x.headD 0 - d.X.length) ^ 2)
    fLP := fun _ x => match v, w with
      | some d, some _ => .ok (x.sum - d.X.length)
      | _, _ => .error .attributeError }

def partsArgs (kind : String) (n : Nat) : BayesArgs := { f := none, evaluatorType := some kind, batchSize := n }

/-- The state after a fit to the data. -/
def partsState (context : Option Context) : BOState :=
  { boInit [[-1, -1, 0, 2]] (some [1]) .none with
    context := context, fits := [{ acq := 0, X := [[-1, -1, 0, 0, 0, 1]], Y := [1] }] }

/-- Negation of C161 for contexts: local penalization with an acquisition object, whose model has data. The context is
written into the optimizer of the acquisition object, the batch is computed with another one: the suggestions do not have
the value of the context. -/
theorem C161_context_counterexample :
    ∃ sp p, designSpace exConfig none = .ok sp ∧
      chooseParts (partsArgs "local_penalization" 2) .absent (.object { model := 7, optimizer := some 8 }) ⟨1, 2⟩ = .ok p ∧
      partsSuggest p 2 (fun _ => some { acq := 0, X := [[-1, -1, 0, 0, 0, 1]], Y := [1] }) partsEnv sp false
        (partsState exContext) none none = .ok [[-1, -1, 0, 2], [-1, -1, 0, 2]] ∧
      ¬ HasContext sp exContext [-1, -1, 0, 2] := by
  refine ⟨_, _, rfl, rfl, by decide +kernel, ?_⟩
  intro h
  have := h ("x_2", 1/2) (by simp [exContext]) _ rfl
  revert this
  decide +kernel

/-- The same call without an acquisition object. -/
example :
    let p := chooseParts (partsArgs "local_penalization" 2) .absent .absent ⟨1, 2⟩
    ((designSpace exConfig none).bind fun sp => p.bind fun p =>
      partsSuggest p 2 (fun _ => none) partsEnv sp false
        (partsState exContext) none none) = .ok [[-1, 1/2, 0, 1], [-1, 1/2, 0, 1]] := by
  decide +kernel

/-- Model and acquisition object that fit together: the suggestion comes from the fit of the loop. -/
example : Matching (.object ⟨7, false⟩) (.object { model := 7, optimizer := some 8 }) ∧
    ((designSpace exConfig none).bind fun sp =>
      (chooseParts (partsArgs "sequential" 1) (.object ⟨7, false⟩) (.object { model := 7, optimizer := some 8 }) ⟨1, 2⟩).bind
        fun p => partsSuggest p 1 (fun _ => none) partsEnv sp false (partsState exContext) none none)
      = .ok [[-1, 1/2, 0, 1]] :=
  ⟨.inr ⟨_, _, rfl, rfl, rfl, rfl, rfl⟩, by decide +kernel⟩

/-- The acquisition object alone: its model has no data, and the first suggestion raises. -/
example : (∀ w s, (∀ x v, (partsEnv none w s).f x ≠ .ok v) ∧ ∀ l x v, (partsEnv none w s).fLP l x ≠ .ok v) ∧
    ((designSpace exConfig none).bind fun sp =>
      (chooseParts (partsArgs "sequential" 1) .absent (.object { model := 7, optimizer := some 8 }) ⟨1, 2⟩).bind
        fun p => partsSuggest p 1 (fun _ => none) partsEnv sp false (partsState none) none none)
      = .error .attributeError :=
  ⟨fun w s => ⟨fun _ _ => by simp [partsEnv], fun _ _ _ => by simp [partsEnv]⟩, by decide +kernel⟩

/-- The penalized acquisition of the library's own class, and a model object, with local penalization. -/
example : (chooseParts (partsArgs "local_penalization" 2) .absent
      (.object { model := 7, optimizer := some 8, base := some 7 }) ⟨1, 2⟩).toOption = none ∧
    (chooseParts (partsArgs "local_penalization" 2) (.object ⟨7, false⟩) .absent ⟨1, 2⟩).toOption = none ∧
    (chooseParts (partsArgs "random" 2) (.object ⟨7, false⟩) .absent ⟨1, 2⟩).toOption
      = some { model := some 7, modelType := "User defined model used.", acq := { model := 7, optimizer := some 2 }
               evaluator := some .randomBatch, penalized := none } := by
  decide

/-- A model object with random batches of two: the hypotheses on the evaluator are met. -/
example : ∃ p, chooseParts (partsArgs "random" 2) (.object ⟨7, false⟩) .absent ⟨1, 2⟩ = .ok p ∧
    Matching (.object ⟨7, false⟩) .absent ∧
    NamedEvaluator (partsArgs "random" 2).evaluatorType (partsArgs "random" 2).batchSize (.random 2) :=
  ⟨_, rfl, .inl (by simp), .random 2 (by decide)⟩

end GPyOpt.Props
