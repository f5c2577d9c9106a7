import Verif.Model.Constructor
import Verif.Props.Design
import Verif.Props.Batch
import Verif.Props.Parallel
import Verif.Props.NoRepeat

/-!
# Properties C94–C97: construction of an optimizer, and where the objective is called
-/

namespace GPyOpt.Props

open GPyOpt Spec

/-! ## C94: initial data -/

theorem bayesConstruct_ok {a : BayesArgs} {config : List Desc} {cs : Option (List ConstrDict)}
    {o : DesignOracle} {evaluate : Mat → World → World × Py Vec} {w : World} {b : BayesObj}
    (h : bayesConstruct a config cs o evaluate = (w, .ok b)) :
    ∃ X Y, designSpace config cs = .ok b.sp ∧
      initDesignChooser a b.sp o evaluate { calls := [], ticks := 0 } = (w, .ok (X, Y)) ∧
      b.state = { boInit X (some Y) .costModel with world := w } := by
  unfold bayesConstruct at h
  simp only at h
  cases hs : designSpace config cs with
  | error e => simp [hs] at h
  | ok sp =>
    simp only [hs] at h
    rcases hi : initDesignChooser a sp o evaluate { calls := [], ticks := 0 } with ⟨w1, r⟩
    rw [hi] at h
    cases r with
    | error e => simp at h
    | ok p =>
      obtain ⟨X, Y⟩ := p
      simp only at h
      cases hm : chooseModelAcq a.modelType a.acqType none none with
      | error e => simp [hm] at h
      | ok mq =>
        simp only [hm] at h
        cases he : evaluatorCreator a.evaluatorType false a.batchSize a.modelType with
        | error e => simp [he] at h
        | ok ev =>
          simp only [he, Prod.mk.injEq, Except.ok.injEq] at h
          obtain ⟨rfl, rfl⟩ := h
          exact ⟨X, Y, rfl, hi, rfl⟩

/-- `Y` are the outputs, one per row of `X` and in this order, of the calls `calls` of the user's
function `f`; they are negated if `maximize`. -/
def OutputsAt (maximize : Bool) (f : Nat → Vec → Py ℚ) (X : Mat) (Y : Vec)
    (calls : List (Vec × Py ℚ)) : Prop :=
  Y.length = X.length ∧ calls = List.zip X (Y.map .ok) ∧
    ∀ (i : Nat) (x : Vec) (y : ℚ), X[i]? = some x → Y[i]? = some y →
      f i x = .ok (if maximize then -y else y)

theorem sequentialEvaluate_ok {maximize : Bool} {f : Nat → Vec → Py ℚ} {clock : Nat → ℚ} {X : Mat}
    {Y : Vec} {w : World} {t : Nat}
    (h : sequentialEvaluate (signed maximize f) clock X { calls := [], ticks := t } = (w, .ok Y)) :
    OutputsAt maximize f X Y w.calls := by
  unfold sequentialEvaluate at h
  rcases he : evalFunc (signed maximize f) clock X { calls := [], ticks := t } with ⟨w1, r⟩
  rw [he] at h
  cases r with
  | error e => simp [Except.map] at h
  | ok p =>
    obtain ⟨ys, ts⟩ := p
    simp only [Except.map, Prod.mk.injEq, Except.ok.injEq] at h
    obtain ⟨rfl, rfl⟩ := h
    obtain ⟨h1, -, h3⟩ := evalFunc_ok he
    have hl := (evalFunc_logged (obj := signed maximize f) (by intro j x r hj; simp at hj) he).1
    simp only [List.nil_append] at h3
    refine ⟨h1, h3, ?_⟩
    intro i x y hx hy
    have := hl i x (.ok y) (by
      rw [h3, callsOf, List.getElem?_zip_eq_some]; exact ⟨hx, by simp [hy]⟩)
    unfold signed at this
    cases maximize with
    | false => simpa using this
    | true =>
      simp only [if_true] at this ⊢
      cases hf : f i x with
      | error e => simp [hf, Except.map] at this
      | ok v =>
        simp only [hf, Except.map, Except.ok.injEq] at this
        rw [← this, neg_neg]

/-- C94. The data of a new optimizer. Locations and outputs that are both given are taken as they are
and the objective is not called. Given locations without outputs are evaluated, once each and in
order. Without locations the initial design is evaluated. -/
theorem C94_initial_data (a : BayesArgs) (f : Nat → Vec → Py ℚ) (hf : a.f = some f)
    (config : List Desc) (cs : Option (List ConstrDict)) (o : DesignOracle) (clock : Nat → ℚ)
    (w : World) (b : BayesObj)
    (h : bayesConstruct a config cs o (sequentialEvaluate (signed a.maximize f) clock) = (w, .ok b)) :
    ∃ Y, b.state.Y = some Y ∧ b.state.world.calls = w.calls ∧
      (∀ X0 Y0, a.X = some X0 → a.Y = some Y0 → b.state.X = X0 ∧ Y = Y0 ∧ w.calls = []) ∧
      (∀ X0, a.X = some X0 → a.Y = none →
        b.state.X = X0 ∧ OutputsAt a.maximize f X0 Y w.calls) ∧
      (a.X = none → initialDesign a.designType b.sp o a.numData = .ok b.state.X ∧
        OutputsAt a.maximize f b.state.X Y w.calls) := by
  obtain ⟨X, Y, hs, hi, hst⟩ := bayesConstruct_ok h
  refine ⟨Y, by rw [hst]; rfl, by rw [hst], ?_⟩
  have hX : b.state.X = X := by rw [hst]; rfl
  rw [hX]
  unfold initDesignChooser at hi
  rw [if_neg (by simp [hf])] at hi
  cases hax : a.X with
  | none =>
    simp only [hax] at hi
    refine ⟨by simp, by simp, fun _ => ?_⟩
    cases hd : initialDesign a.designType b.sp o a.numData with
    | error e => simp [hd] at hi
    | ok Xd =>
      simp only [hd] at hi
      rcases he : sequentialEvaluate (signed a.maximize f) clock Xd { calls := [], ticks := 0 } with ⟨w1, r⟩
      rw [he] at hi
      cases r with
      | error e => simp at hi
      | ok ys =>
        simp only [Prod.mk.injEq, Except.ok.injEq] at hi
        obtain ⟨rfl, rfl, rfl⟩ := hi
        exact ⟨rfl, sequentialEvaluate_ok he⟩
  | some X0 =>
    cases hay : a.Y with
    | none =>
      simp only [hax, hay] at hi
      refine ⟨by simp, ?_, by simp⟩
      intro X0' hX0 _
      simp only [Option.some.injEq] at hX0
      subst hX0
      rcases he : sequentialEvaluate (signed a.maximize f) clock X0 { calls := [], ticks := 0 } with ⟨w1, r⟩
      rw [he] at hi
      cases r with
      | error e => simp at hi
      | ok ys =>
        simp only [Prod.mk.injEq, Except.ok.injEq] at hi
        obtain ⟨rfl, rfl, rfl⟩ := hi
        exact ⟨rfl, sequentialEvaluate_ok he⟩
    | some Y0 =>
      simp only [hax, hay, Prod.mk.injEq, Except.ok.injEq] at hi
      obtain ⟨rfl, rfl, rfl⟩ := hi
      refine ⟨?_, by simp, by simp⟩
      intro X0' Y0' h1 h2
      simp only [Option.some.injEq] at h1 h2
      exact ⟨h1, h2, rfl⟩

/-- C94: without an objective both locations and outputs are needed, otherwise the configuration is
refused; the data are taken as they are. No evaluation is attempted in either case. -/
theorem C94_without_objective (a : BayesArgs) (hf : a.f = none) (config : List Desc)
    (cs : Option (List ConstrDict)) (sp : Space) (hs : designSpace config cs = .ok sp)
    (o : DesignOracle) (evaluate : Mat → World → World × Py Vec) :
    (bayesConstruct a config cs o evaluate).1.calls = [] ∧
    ((a.X = none ∨ a.Y = none) → (bayesConstruct a config cs o evaluate).2 = .error .invalidConfig) ∧
    ∀ b, (bayesConstruct a config cs o evaluate).2 = .ok b →
      a.X = some b.state.X ∧ a.Y = b.state.Y ∧ a.Y.isSome := by
  unfold bayesConstruct initDesignChooser
  simp only [hs, hf, Option.isNone_none, true_and]
  cases hax : a.X with
  | none => simp
  | some X0 =>
    cases hay : a.Y with
    | none => simp
    | some Y0 =>
      simp only [Option.isNone_some, Bool.false_eq_true, or_self, if_false]
      cases hm : chooseModelAcq a.modelType a.acqType none none with
      | error e => simp
      | ok mq =>
        cases he : evaluatorCreator a.evaluatorType false a.batchSize a.modelType with
        | error e => simp
        | ok ev =>
          simp only [reduceCtorEq, or_self, Except.ok.injEq, true_and]
          refine ⟨by simp, ?_⟩
          rintro b rfl
          simp [boInit]

/-- an objective and arguments for the examples -/
def exArgs : BayesArgs := { f := some fun _ x => .ok x.sum, numData := 3 }

/-- The hypotheses of `C94_initial_data` are met: three locations of a random design. -/
example : ∃ w b, bayesConstruct exArgs exConfig none exOracle
    (sequentialEvaluate (signed false fun _ x => .ok x.sum) fun n => n) = (w, .ok b) ∧
    b.state.X.length = 3 ∧ w.calls.length = 3 := by
  refine ⟨_, _, rfl, ?_, ?_⟩ <;> decide +kernel

/-- C94 (negation): outputs that are given without locations are ignored, silently: the object has
the outputs of a new design. -/
theorem C94_outputs_without_locations_counterexample :
    (bayesConstruct { exArgs with Y := some [100, 200, 300] } exConfig none exOracle
      (sequentialEvaluate (signed false fun _ x => .ok x.sum) fun n => n)).2.map (fun b => b.state.Y)
    = (bayesConstruct exArgs exConfig none exOracle
      (sequentialEvaluate (signed false fun _ x => .ok x.sum) fun n => n)).2.map (fun b => b.state.Y) ∧
    ∃ b, (bayesConstruct { exArgs with Y := some [100, 200, 300] } exConfig none exOracle
      (sequentialEvaluate (signed false fun _ x => .ok x.sum) fun n => n)).2 = .ok b ∧
      b.state.Y ≠ some [100, 200, 300] := by
  refine ⟨rfl, _, rfl, ?_⟩
  decide +kernel

/-- C94 (negation): locations and outputs of different number are accepted. -/
theorem C94_misaligned_counterexample :
    ∃ w b, bayesConstruct { exArgs with X := some [[0, 0, 3, 1]], Y := some [] } exConfig none exOracle
      (sequentialEvaluate (signed false fun _ x => .ok x.sum) fun n => n) = (w, .ok b) ∧
      b.state.X.length = 1 ∧ b.state.Y = some [] := by
  refine ⟨_, _, rfl, ?_, ?_⟩ <;> decide +kernel

/-! ## C95: the number of processes -/

/-- C95 (negation). The number of processes is the batch size, whatever `num_cores` is: with
`num_cores = 1` (the default) and a batch size of two or more, an objective that raises at a row
makes the construction wait for ever, in every schedule, where a single process would report the
exception. -/
theorem C95_num_cores_counterexample (a : BayesArgs) (hb : 2 ≤ a.batchSize) (hn : a.numCores = 1)
    (f : Vec → Py ℚ) (x : Mat) (row : Vec) (hrow : row ∈ x) (e : Err) (he : f row = .error e)
    (size : Vec → Nat) (cap : Nat) (clock : Nat → ℚ) (w : World) :
    (∀ r, ¬ ObjEvaluates a.nProcs f size cap true clock w x r) ∧
    ∃ e', ObjEvaluates a.numCores f size cap true clock w x (.error e') := by
  refine ⟨?_, ?_⟩
  · intro r hr
    cases hr with
    | sequential h1 => simp only [BayesArgs.nProcs] at h1; omega
    | parallel _ hp =>
      exact (C49_worker_failure_counterexample _ (by simp only [BayesArgs.nProcs]; omega) rfl row hrow e
        he).2.2 clock w _ hp
  · cases hev : (evalFunc (fun _ => f) clock x w).2 with
    | ok p =>
      have := evalFunc_forall (ys := p.1) (ts := p.2) hev
      obtain ⟨i, hi⟩ := List.getElem?_of_mem hrow
      rw [List.forall₂_iff_get] at this
      have hlt := (List.getElem?_eq_some_iff.1 hi).1
      have hg := this.2 i hlt (by rw [← this.1]; exact hlt)
      rw [List.getElem?_eq_getElem hlt, Option.some.injEq] at hi
      simp only [List.get_eq_getElem, hi, he] at hg
      cases hg
    | error e' =>
      refine ⟨e', ?_⟩
      have := ObjEvaluates.sequential (n := a.numCores) (f := f) (size := size) (cap := cap)
        (canStart := true) (clock := clock) (w := w) (x := x) hn
      rw [hev] at this
      exact this

example : (2 : Nat) ≤ ({ exArgs with batchSize := 2 } : BayesArgs).batchSize ∧
    ({ exArgs with batchSize := 2 } : BayesArgs).numCores = 1 := by decide

/-- C95 (partial: about the returned outputs, not about processes and failures). Whatever the
number of processes, an evaluation that returns yields the values of the objective at the rows, in
order: two evaluations with different numbers of processes agree. -/
theorem C95_outputs_partial (n : Nat) (hn : 1 ≤ n) (f : Vec → Py ℚ) (size : Vec → Nat) (cap : Nat)
    (canStart : Bool) (clock : Nat → ℚ) (w : World) (x : Mat) (ys : Vec) (t : CostEvals)
    (h : ObjEvaluates n f size cap canStart clock w x (.ok (ys, t))) :
    List.Forall₂ (fun row y => f row = .ok y) x ys := by
  generalize hr : (.ok (ys, t) : Py (Vec × CostEvals)) = r at h
  cases h with
  | sequential h1 =>
    cases hev : (evalFunc (fun _ => f) clock x w).2 with
    | error e => rw [hev] at hr; cases hr
    | ok p =>
      rw [hev] at hr
      simp only [Except.map, Except.ok.injEq, Prod.mk.injEq] at hr
      rw [hr.1]
      exact evalFunc_forall (ys := p.1) (ts := p.2) hev
  | parallel h1 hp =>
    exact (C48_parallel_equals_sequential _ hn clock w _ hp).2 ys t hr.symm

/-! ## C96: invalid configurations and evaluations -/

/-- C96 (negation). An unknown acquisition is refused only after the whole initial design has been
evaluated. -/
theorem C96_evaluated_before_refused_counterexample :
    let r := bayesConstruct { exArgs with acqType := some "EIx" } exConfig none exOracle
      (sequentialEvaluate (signed false fun _ x => .ok x.sum) fun n => n)
    r.1.calls.length = 3 ∧ (∃ e, r.2 = .error e) := by
  refine ⟨by decide +kernel, _, rfl⟩

/-- C96 (partial: only errors of the space, of missing data and of the design). An error in the
description of the space, missing data and a design that cannot be made are reported before the
objective is called. -/
theorem C96_refused_before_evaluation_partial (a : BayesArgs) (config : List Desc)
    (cs : Option (List ConstrDict)) (o : DesignOracle) (evaluate : Mat → World → World × Py Vec)
    (e : Err)
    (h : designSpace config cs = .error e ∨
      (∃ sp, designSpace config cs = .ok sp ∧
        ((a.f = none ∧ (a.X = none ∨ a.Y = none) ∧ e = .invalidConfig) ∨
         (a.f ≠ none ∧ a.X = none ∧ initialDesign a.designType sp o a.numData = .error e)))) :
    bayesConstruct a config cs o evaluate = ({ calls := [], ticks := 0 }, .error e) := by
  rcases h with h | ⟨sp, hs, ⟨h1, h2, rfl⟩ | ⟨h1, h2, h3⟩⟩
  · simp [bayesConstruct, h]
  · simp [bayesConstruct, hs, initDesignChooser, h1, h2]
  · have : a.f.isNone = false := by
      cases hf : a.f with
      | none => exact absurd hf h1
      | some f => rfl
    simp [bayesConstruct, hs, initDesignChooser, this, h2, h3]

/-- A configuration that is refused at every stage: duplicate descriptors are not needed, an unknown
design is enough. -/
example : bayesConstruct { exArgs with designType := "sobl" } exConfig none exOracle
    (sequentialEvaluate (signed false fun _ x => .ok x.sum) fun n => n)
    = ({ calls := [], ticks := 0 }, .error .valueError) := by
  obtain ⟨sp, hsp, -⟩ := exConfig_ok
  exact C96_refused_before_evaluation_partial _ _ _ _ _ _ (Or.inr ⟨sp, hsp, Or.inr
    ⟨by simp [exArgs], rfl, by simp [initialDesign]⟩⟩)

/-! ## C97: the objective is only called inside the domain -/

/-- Every design that is made lies in the domain. -/
theorem initialDesign_domain {config : List Desc} {cs : Option (List ConstrDict)} {sp : Space}
    (h : designSpace config cs = .ok sp) (hb : sp.hasBandit = false)
    (hs : ∀ k ∈ kindsOf config, Samplable k) {o : DesignOracle} (ho : UnitOracle o) {name : String}
    {n : Nat} {m : Mat} (hm : initialDesign name sp o n = .ok m) :
    ∀ row ∈ m, ObjDomain (kindsOf config) row := by
  by_cases hr : name = "random"
  · subst hr
    cases cs with
    | none =>
      obtain ⟨m', h1, -, h3⟩ := C15_random_design h hb hs o ho.draws n
      rw [hm] at h1
      cases h1
      exact h3
    | some cs => exact fun row hrow => ((C16_constrained_design h hb hs o ho.draws n m hm).2 row hrow).1
  cases cs with
  | some cs =>
    exfalso
    by_cases hn : name ∈ ["latin", "sobol", "grid"]
    · rw [C17_constraints_refused h o n name hn] at hm; cases hm
    · simp only [List.mem_cons, List.not_mem_nil, or_false, not_or] at hn
      simp [initialDesign, hr, hn] at hm
  | none =>
    by_cases hl : name = "latin" ∨ name = "sobol"
    · have := C17_latin_sobol h hb hs o ho.lhs ho.sobol n
      simp only [List.mem_cons, List.not_mem_nil, or_false, forall_eq_or_imp, forall_eq] at this
      rcases hl with rfl | rfl
      · obtain ⟨m', h1, -, h3, -⟩ := this.1
        rw [hm] at h1; cases h1; exact h3
      · obtain ⟨m', h1, -, h3, -⟩ := this.2
        rw [hm] at h1; cases h1; exact h3
    · push Not at hl
      by_cases hg : name = "grid"
      · subst hg
        by_cases hd : (kindsOf config).filterMap contBound = []
        · exfalso
          rw [← space_kinds_eq h] at hd
          have hl : contPos 0 sp.kinds = [] := by
            have : ∀ (ks : List Kind) s, ks.filterMap contBound = [] → contPos s ks = [] := by
              intro ks
              induction ks with
              | nil => intro s _; rfl
              | cons k ks ih =>
                intro s hk
                rw [List.filterMap_cons] at hk
                cases k with
                | continuous lo hi => simp [contBound] at hk
                | discrete vs => exact ih _ hk
                | categorical vs => exact ih _ hk
                | bandit arms => exact ih _ hk
            exact this _ _ hd
          simp only [initialDesign, gridDesign, getContinuousDims_eq h hb, hl, List.length_nil,
            (C18_iroot_zero n 2 (le_refl 2)).1] at hm
          (split_ifs at hm; simp_all)
        · rcases Nat.eq_zero_or_pos n with rfl | hn
          · have hdims := getContinuousDims_eq h hb
            obtain ⟨_, _, _, _, _, _, hc⟩ := designSpace_ok h
            simp only [initialDesign, gridDesign, hdims, Space.hasConstraints, hc] at hm
            simp only [String.reduceEq, if_false, if_true] at hm
            by_cases h2 : 2 ≤ (contPos 0 sp.kinds).length
            · rw [(C18_iroot_zero 0 _ h2).2] at hm
              cases hm
            · have h0 : (contPos 0 sp.kinds).length = 0 ∨ (contPos 0 sp.kinds).length = 1 := by omega
              rcases h0 with h0 | h0
              · rw [h0, (C18_iroot_zero 0 2 (le_refl 2)).1] at hm
                cases hm
              · have hi : iroot 1 0 = .ok 0 := by
                  unfold iroot
                  rw [irootLoop, if_pos (by omega), if_neg (by omega), if_neg (by omega), irootLoop,
                    if_neg (by norm_num)]
                rw [h0, hi] at hm
                simp at hm
                subst hm
                simp
          · obtain ⟨M, m', coord, h1, -, -, -, h5, -⟩ := C19_grid h hb hs o hd n hn
            rw [hm] at h1; cases h1; exact h5
      · simp [initialDesign, hr, hl, hg] at hm

/-- Evaluators for which suggestions are known to be in the domain (any evaluator that a
`BayesianOptimization` object creates). -/
def GoodEvaluator (deDup : Bool) : Evaluator → Prop
  | .sequential => True
  | .random n => if deDup then 2 ≤ n else 1 ≤ n
  | .thompson n => 1 ≤ n
  | .localPenalization _ => True

/-- C97 for suggestions: whatever the evaluator, suggested points are in the domain and carry the
context. For the random batch without de-duplication there must be enough samples. -/
theorem suggestions_in_domain {config : List Desc} {cs : Option (List ConstrDict)} {sp : Space}
    (h : designSpace config cs = .ok sp) (hb : sp.hasBandit = false)
    (hs : ∀ k ∈ kindsOf config, Samplable k) (hvar : kindsOf config ≠ [])
    {context : Option Context} (hg : ValidContext sp context) {env : EvalEnv} (henv : GoodEnv env)
    (hacq : ∀ k, GoodAcq (env.acqLP k)) {deDup : Bool} {ev : Evaluator} (hev : GoodEvaluator deDup ev)
    (hns : ∀ n, ev = .random n → n - 1 ≤ env.numSamplesRandom) {X : Mat}
    {pending ignored : Option Mat} {m : Mat}
    (hm : computeNext ev env sp context deDup X pending ignored = .ok m) :
    GoodSuggestions (kindsOf config) sp context m := by
  cases ev with
  | sequential =>
    obtain ⟨z, rfl, h1, h2, -⟩ := C28_sequential_partial h hb hs hvar context hg env henv.op henv.acq
      deDup X pending ignored m hm
    intro z' hz'
    rw [List.mem_singleton] at hz'
    subst hz'
    exact ⟨h1, h2⟩
  | random n =>
    cases deDup with
    | true =>
      exact (C29_random_batch_partial h hb hs hvar context hg env henv n (by simpa [GoodEvaluator] using hev)
        X pending ignored m hm).2.2.2.1
    | false =>
      exact (C31_random_batch_size h hb hs hvar context hg env henv n (by simpa [GoodEvaluator] using hev)
        (hns n rfl) X pending ignored m hm).2.1
  | thompson n =>
    cases deDup with
    | true =>
      exact (C30_thompson_batch_partial h hb hs hvar context hg env henv n hev X pending ignored m hm).2.2.2.1
    | false =>
      exact (C31_thompson_batch_size h hb hs hvar context hg env henv n X pending ignored m hm).2
  | localPenalization n =>
    exact (C32_local_penalization_domain h hb hs hvar context hg env henv hacq n deDup X pending ignored
      m hm).2

/-- All recorded calls and all stored locations satisfy `D`. -/
structure Inside (D : Vec → Prop) (s : BOState) : Prop where
  calls : ∀ c ∈ s.world.calls, D c.1
  rows : ∀ x ∈ s.X, D x

theorem evalFunc_inside {D : Vec → Prop} {obj : Nat → Vec → Py ℚ} {clock : Nat → ℚ} {m : Mat}
    {w w' : World} {r : Py (Vec × Vec)} (hm : ∀ x ∈ m, D x) (hw : ∀ c ∈ w.calls, D c.1)
    (h : evalFunc obj clock m w = (w', r)) : ∀ c ∈ w'.calls, D c.1 := by
  cases r with
  | ok p =>
    obtain ⟨-, -, h3⟩ := evalFunc_ok (ys := p.1) (ts := p.2) h
    rw [h3]
    intro c hc
    rcases List.mem_append.1 hc with hc | hc
    · exact hw c hc
    · exact hm _ (List.of_mem_zip (show (c.1, c.2) ∈ _ from hc)).1
  | error e =>
    obtain ⟨i, x, ys, h1, -, h3⟩ := evalFunc_error h
    rw [h3]
    intro c hc
    simp only [List.mem_append, List.mem_singleton] at hc
    rcases hc with (hc | hc) | rfl
    · exact hw c hc
    · exact hm _ (List.mem_of_mem_take (List.of_mem_zip (show (c.1, c.2) ∈ _ from hc)).1)
    · exact hm _ (List.mem_of_getElem? h1)

theorem evaluateObjective_inside {D : Vec → Prop} {env : BOEnv} {obj : Nat → Vec → Py ℚ}
    {s s' : BOState} {m : Mat} {r : Py Unit} (hm : ∀ x ∈ m, D x) (hs : Inside D s)
    (h : evaluateObjective env obj s m = (s', r)) : Inside D s' ∧ s'.context = s.context := by
  have hX := (evaluateObjective_frame h).1
  unfold evaluateObjective at h
  rcases he : evalFunc obj env.clock m s.world with ⟨w, q⟩
  rw [he] at h
  have hw := evalFunc_inside hm hs.calls he
  have key : s'.world = w ∧ s'.context = s.context := by
    cases q with
    | error e =>
      simp only [Prod.mk.injEq] at h
      rw [← h.1]; exact ⟨rfl, rfl⟩
    | ok p =>
      simp only at h
      rcases hc : s.cost.update env.lg (env.costFit s) m (.list p.2) with ⟨c, q'⟩
      rw [hc] at h
      cases q' with
      | error e =>
        simp only [Prod.mk.injEq] at h
        rw [← h.1]; exact ⟨rfl, rfl⟩
      | ok u =>
        cases hY : s.Y with
        | none =>
          simp only [hY, Prod.mk.injEq] at h
          rw [← h.1]; exact ⟨rfl, rfl⟩
        | some Y =>
          simp only [hY, Prod.mk.injEq] at h
          rw [← h.1]; exact ⟨rfl, rfl⟩
  exact ⟨⟨by rw [key.1]; exact hw, by rw [hX]; exact hs.rows⟩, key.2⟩

/-- The state a round ends in. -/
def _root_.GPyOpt.Round.state : Round → BOState
  | .next s => s
  | .stop s _ => s
  | .raised s _ => s

theorem boRound_inside {D : Vec → Prop} {P : Option Context → Prop} {env : BOEnv}
    {obj : Nat → Vec → Py ℚ} {mi mt : Limit} {eps : ℚ}
    (hsug : ∀ s m, P s.context → env.suggest s none none = .ok m → ∀ x ∈ m, D x) {s : BOState}
    (hP : P s.context) (hs : Inside D s) :
    Inside D (boRound env obj mi mt eps s).state ∧
      (boRound env obj mi mt eps s).state.context = s.context := by
  unfold boRound
  split_ifs with ht
  · rcases hu : updateModel env s with ⟨s1, r⟩
    obtain ⟨ps, fs, hfr⟩ := updateModel_frame hu
    have hs1 : Inside D s1 := by rw [hfr]; exact ⟨hs.calls, hs.rows⟩
    have hc1 : s1.context = s.context := by rw [hfr]
    cases r with
    | error e => cases e <;> exact ⟨hs1, hc1⟩
    | ok u =>
      simp only
      split_ifs with hstop
      · exact ⟨hs1, hc1⟩
      · cases hsu : env.suggest s1 none none with
        | error e => exact ⟨hs1, hc1⟩
        | ok m =>
          simp only
          have hm := hsug s1 m (by rw [hc1]; exact hP) hsu
          rcases he : evaluateObjective env obj { s1 with X := s1.X ++ m } m with ⟨s2, q⟩
          have h2 := evaluateObjective_inside hm (s := { s1 with X := s1.X ++ m })
            ⟨hs1.calls, by
              intro x hx
              rcases List.mem_append.1 hx with hx | hx
              · exact hs1.rows x hx
              · exact hm x hx⟩ he
          cases q with
          | error e => exact ⟨h2.1, h2.2.trans hc1⟩
          | ok u => exact ⟨⟨h2.1.calls, h2.1.rows⟩, h2.2.trans hc1⟩
  · exact ⟨hs, rfl⟩

theorem boLoop_inside {D : Vec → Prop} {P : Option Context → Prop} {env : BOEnv}
    {obj : Nat → Vec → Py ℚ} {mi mt : Limit} {eps : ℚ}
    (hsug : ∀ s m, P s.context → env.suggest s none none = .ok m → ∀ x ∈ m, D x) (fuel : Nat)
    {s : BOState} (hP : P s.context) (hs : Inside D s) :
    Inside D (boLoop env obj mi mt eps fuel s).1 := by
  induction fuel generalizing s with
  | zero => exact hs
  | succ fuel ih =>
    have hr := boRound_inside (obj := obj) (mi := mi) (mt := mt) (eps := eps) hsug hP hs
    unfold boLoop
    cases hb : boRound env obj mi mt eps s with
    | next s' => rw [hb] at hr; exact ih (by rw [show s'.context = s.context from hr.2]; exact hP) hr.1
    | stop s' why => rw [hb] at hr; exact hr.1
    | raised s' e => rw [hb] at hr; exact hr.1

theorem run_inside {D : Vec → Prop} {P : Option Context → Prop} {env : BOEnv}
    (hsug : ∀ s m, P s.context → env.suggest s none none = .ok m → ∀ x ∈ m, D x) (a : RunArgs)
    (hP : P a.context) (fuel : Nat) {s : BOState} (hs : Inside D s) :
    Inside D (runOptimization env a fuel s).1 := by
  unfold runOptimization
  cases env.obj with
  | none => exact hs
  | some obj =>
    simp only
    rcases hst : runStart env obj a s with ⟨s0, r⟩
    have h0 : Inside D s0 := by
      have hX := (runStart_frame hst).1
      refine ⟨?_, by rw [hX]; exact hs.rows⟩
      unfold runStart at hst
      simp only at hst
      cases hY : s.Y with
      | some Y =>
        simp only [hY, Prod.mk.injEq] at hst
        rw [← hst.1]; exact hs.calls
      | none =>
        simp only [hY] at hst
        rcases he : evalFunc obj env.clock s.X s.world with ⟨w, q⟩
        rw [he] at hst
        have hw := evalFunc_inside hs.rows hs.calls he
        cases q with
        | error e =>
          simp only [Prod.mk.injEq] at hst
          rw [← hst.1]; exact hw
        | ok p =>
          simp only at hst
          split_ifs at hst with hk
          · split at hst <;> (simp only [Prod.mk.injEq] at hst; rw [← hst.1]; exact hw)
          · simp only [Prod.mk.injEq] at hst
            rw [← hst.1]; exact hw
    cases r with
    | error e => exact h0
    | ok u =>
      simp only
      have hl := boLoop_inside (obj := obj) (mi := a.limits.1) (mt := a.limits.2) (eps := a.eps) hsug fuel
        (by rw [(runStart_ok hst).context]; exact hP) h0
      rcases hb : boLoop env obj a.limits.1 a.limits.2 a.eps fuel s0 with ⟨s2, r⟩
      rw [hb] at hl
      cases r with
      | running => exact hl
      | raised e => exact hl
      | done why =>
        simp only
        cases hY : s2.Y with
        | none => exact hl
        | some Y =>
          simp only
          cases hr : computeResults s2.X Y with
          | error e => exact hl
          | ok r => exact ⟨hl.calls, hl.rows⟩

/-- The context of a call of the interface. -/
def opContext : Op → Option Context
  | .suggest c _ _ => c
  | .run a _ => a.context

/-- C97. An optimizer without given locations calls the objective only at points of the domain: in
the construction (also one that ends with an exception), and during any sequence of calls of the
interface with valid contexts, whatever their outcomes. The stored locations are in the domain, too. -/
theorem C97_called_inside_domain {config : List Desc} {cs : Option (List ConstrDict)} {sp : Space}
    (h : designSpace config cs = .ok sp) (hb : sp.hasBandit = false)
    (hs : ∀ k ∈ kindsOf config, Samplable k) (hvar : kindsOf config ≠ [])
    (a : BayesArgs) (f : Nat → Vec → Py ℚ) (hf : a.f = some f) (hX : a.X = none)
    (o : DesignOracle) (ho : UnitOracle o) (clock : Nat → ℚ)
    (ev : Evaluator) (deDup : Bool) (hev : GoodEvaluator deDup ev)
    (envs : BOState → EvalEnv) (henvs : ∀ s, GoodEnv (envs s))
    (hacq : ∀ s k, GoodAcq ((envs s).acqLP k))
    (hns : ∀ s n, ev = .random n → n - 1 ≤ (envs s).numSamplesRandom)
    (env : BOEnv) (hsug : env.suggest = stdSuggest sp ev envs deDup) (w : World) (r : Py BayesObj)
    (hcon : bayesConstruct a config cs o (sequentialEvaluate (signed a.maximize f) clock) = (w, r)) :
    (∀ c ∈ w.calls, ObjDomain (kindsOf config) c.1) ∧
    ∀ b, r = .ok b → ∀ ops : List Op, (∀ op ∈ ops, ValidContext sp (opContext op)) →
      (∀ c ∈ (afterAll env ops b.state).world.calls, ObjDomain (kindsOf config) c.1) ∧
      ∀ x ∈ (afterAll env ops b.state).X, ObjDomain (kindsOf config) x := by
  have hcalls : ∀ c ∈ w.calls, ObjDomain (kindsOf config) c.1 := by
    have hi : ∀ c ∈ (initDesignChooser a sp o (sequentialEvaluate (signed a.maximize f) clock)
        { calls := [], ticks := 0 }).1.calls, ObjDomain (kindsOf config) c.1 := by
      unfold initDesignChooser
      rw [if_neg (by simp [hf])]
      simp only [hX]
      cases hd : initialDesign a.designType sp o a.numData with
      | error e => simp
      | ok Xd =>
        have hdom := initialDesign_domain h hb hs ho hd
        have hev : ∀ c ∈ (sequentialEvaluate (signed a.maximize f) clock Xd
            { calls := [], ticks := 0 }).1.calls, ObjDomain (kindsOf config) c.1 :=
          evalFunc_inside (D := ObjDomain (kindsOf config)) hdom (by simp) rfl
        simp only
        rcases hq : sequentialEvaluate (signed a.maximize f) clock Xd { calls := [], ticks := 0 }
          with ⟨w1, q⟩
        rw [hq] at hev
        cases q <;> exact hev
    unfold bayesConstruct at hcon
    simp only [h] at hcon
    rcases hq : initDesignChooser a sp o (sequentialEvaluate (signed a.maximize f) clock)
        { calls := [], ticks := 0 } with ⟨w1, q⟩
    rw [hq] at hi hcon
    have hw : w = w1 := by
      cases q with
      | error e => simp only [Prod.mk.injEq] at hcon; exact hcon.1.symm
      | ok p =>
        simp only at hcon
        cases hm : chooseModelAcq a.modelType a.acqType none none with
        | error e => simp only [hm, Prod.mk.injEq] at hcon; exact hcon.1.symm
        | ok mq =>
          simp only [hm] at hcon
          cases he : evaluatorCreator a.evaluatorType false a.batchSize a.modelType with
          | error e => simp only [he, Prod.mk.injEq] at hcon; exact hcon.1.symm
          | ok ev => simp only [he, Prod.mk.injEq] at hcon; exact hcon.1.symm
    rw [hw]; exact hi
  refine ⟨hcalls, ?_⟩
  rintro b rfl ops hops
  obtain ⟨X, Y, hsp, -, hst⟩ := bayesConstruct_ok hcon
  rw [h] at hsp
  injection hsp with hsp
  have h0 : Inside (ObjDomain (kindsOf config)) b.state := by
    refine ⟨by rw [hst]; exact hcalls, ?_⟩
    obtain ⟨Y', -, -, -, -, hd⟩ := C94_initial_data a f hf config cs o clock w b hcon
    have := (hd hX).1
    rw [← hsp] at this
    exact initialDesign_domain h hb hs ho this
  have hsg : ∀ (s : BOState) m, ValidContext sp s.context → env.suggest s none none = .ok m →
      ∀ x ∈ m, ObjDomain (kindsOf config) x := by
    intro s m hv hm
    rw [hsug] at hm
    exact fun x hx => (suggestions_in_domain h hb hs hvar hv (henvs s) (hacq s) hev (hns s) hm x hx).1
  have key : ∀ (ops : List Op) (s : BOState), (∀ op ∈ ops, ValidContext sp (opContext op)) →
      Inside (ObjDomain (kindsOf config)) s →
      Inside (ObjDomain (kindsOf config)) (afterAll env ops s) := by
    intro ops
    induction ops with
    | nil => intro s _ hs; exact hs
    | cons op ops ih =>
      intro s hops hs
      refine ih _ (fun op' h' => hops op' (List.mem_cons_of_mem _ h')) ?_
      cases op with
      | suggest c p i =>
        obtain ⟨ps, fs, hfr⟩ := suggest_frame (env := env) (c := c) (p := p) (i := i) (s := s)
        simp only [Op.after, hfr]
        exact ⟨hs.calls, hs.rows⟩
      | run a fuel =>
        exact run_inside (P := ValidContext sp) hsg a (hops (.run a fuel) (by simp)) fuel hs
  have := key ops b.state hops h0
  exact ⟨this.calls, this.rows⟩

/-- The hypotheses of C97 are met by the example space with a random design and two runs. -/
example : ∃ w b, bayesConstruct exArgs exConfig none exOracle
      (sequentialEvaluate (signed false fun _ x => .ok x.sum) fun n => n) = (w, .ok b) ∧
    ((designSpace exConfig none).map fun sp =>
      (afterAll (exFull sp) [.run { maxIter := some (.fin 1) } 10, .run { maxIter := some (.fin 1) } 10]
        b.state).world.calls.length) = .ok 5 := by
  refine ⟨_, _, rfl, ?_⟩
  decide +kernel

/-- C97 (negation): given locations are evaluated as they are, also outside of the domain. -/
theorem C97_given_locations_counterexample :
    (bayesConstruct { exArgs with X := some [[50, 0, 3, 1]] } exConfig none exOracle
      (sequentialEvaluate (signed false fun _ x => .ok x.sum) fun n => n)).1.calls
    = [([50, 0, 3, 1], .ok 54)] ∧
    ¬ ObjDomain (kindsOf exConfig) [50, 0, 3, 1] := by
  refine ⟨by decide +kernel, ?_⟩
  rw [exConfig_kinds]
  intro h
  cases h with
  | cons h1 _ => exact absurd h1.2 (by norm_num)

end GPyOpt.Props
