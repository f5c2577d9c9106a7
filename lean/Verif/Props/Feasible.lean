import Verif.Lemmas.Feasible
import Verif.Model.AcqBase
import Verif.Props.Smaller

/-!
# C156: constraints matter only through their feasible set

The specification is `Verif/Spec/Feasible.lean`.  Two lists of constraints that the same rows meet — other
expressions, another order, repeated or redundant constraints, the old or the new key — give the same
designs, acquisition values, suggestions and runs.
-/

namespace GPyOpt.Props

open GPyOpt Spec

variable {config : List Desc} {cs cs' : Option (List ConstrDict)} {sp sp' : Space}

/-- The weights of the rows are the same. -/
theorem C156_indicator (h : designSpace config cs = .ok sp) (h' : designSpace config cs' = .ok sp') {n : Nat}
    (hf : SameFeasible n cs cs') {X : Mat} (hX : ∀ r ∈ X, r.length = n) :
    sp'.indicatorConstraints X = sp.indicatorConstraints X :=
  hf.indicator h h' hX

/-- The weighted acquisition has the same values. -/
theorem C156_acquisition (h : designSpace config cs = .ok sp) (h' : designSpace config cs' = .ok sp')
    (hb : sp.hasBandit = false) (hf : SameFeasible sp.objectiveDim cs cs') (acq cost : Vec → Py ℚ) {x : Vec}
    (hx : x.length = sp.modelDim) :
    acquisitionFunction sp' acq cost x = acquisitionFunction sp acq cost x := by
  have e := designSpace_constraints h h'
  have hrows : constraintRows sp' x = constraintRows sp x := by rw [e]; rfl
  unfold acquisitionFunction
  rw [hrows]
  cases acq x with
  | error err => rfl
  | ok a =>
    cases cost x with
    | error err => rfl
    | ok k =>
      simp only
      cases hz : constraintRows sp x with
      | error err => rfl
      | ok xz =>
        have hl : ∀ r ∈ xz, r.length = sp.objectiveDim := by
          unfold constraintRows at hz
          split_ifs at hz with hd
          · cases hz
            intro r hr
            rw [List.mem_singleton] at hr
            subst hr
            rw [hx, hd]
          · exact zipInputs_length hb (by simp) hz
        simp only [hf.indicator h h' hl]

/-- Designs: of every type if both problems have constraints or neither has; otherwise random ones (a
problem with constraints refuses the other types). -/
theorem C156_designs (h : designSpace config cs = .ok sp) (h' : designSpace config cs' = .ok sp')
    (hf : SameFeasible sp.dimensionality cs cs') (name : String) (o : DesignOracle) (n : Nat)
    (hs : cs'.isSome = cs.isSome ∨ name = "random" ∧ 1 ≤ o.fuel) :
    initialDesign name sp' o n = initialDesign name sp o n := by
  have e := designSpace_constraints h h'
  obtain ⟨_, -, -, -, -, -, hcs⟩ := designSpace_ok h
  have := initialDesign_same (sp := sp) (k := cs'.map (List.map fixConstr))
    (fun X hX => by rw [← e]; exact hf.indicator h h' hX) name o n (by rw [hcs]; simpa using hs)
  rwa [← e] at this

/-- Suggestions, with the same acquisition. -/
theorem C156_suggestions (h : designSpace config cs = .ok sp) (h' : designSpace config cs' = .ok sp')
    (hb : sp.hasBandit = false) (hne : ∀ k ∈ sp.kinds, NonEmptyDom k) {env env' : EvalEnv}
    {context : Option Context}
    (hf : ∀ c, contextManager sp context = .ok c → SameFeasible c.nocontextIndexObj.length cs cs' ∧
      SameAcquisition sp.modelDim c.noncontextIndex.length env env')
    (hs : cs'.isSome = cs.isSome ∨ RandomOnly env) (ev : Evaluator) (deDup : Bool) (X : Mat)
    (pending ignored : Option Mat) :
    computeNext ev env' sp' context deDup X pending ignored
      = computeNext ev env sp context deDup X pending ignored := by
  have e := designSpace_constraints h h'
  have hcm : contextManager sp' context = contextManager sp context := by
    rw [e]; exact contextManager_same _ _ _
  cases hc : contextManager sp context with
  | error err => simp only [computeNext, hcm, hc]
  | ok c =>
    obtain ⟨hfe, hac⟩ := hf c hc
    have he : CorrEnv sp.modelDim c.noncontextIndex.length id id
        (fun o o' => o' = o ∧ (cs'.isSome = cs.isSome ∨ 1 ≤ o.fuel)) env env' := by
      obtain ⟨r, f1, f2, a1, a2, a3⟩ := hac
      rw [r]
      refine ⟨rfl, f1, ⟨⟨rfl, hs.imp id (·.acq)⟩, rfl, fun X _ => by simp, a1⟩,
        ⟨⟨rfl, hs.imp id (·.batch)⟩, rfl, fun X _ => by simp, a2⟩, rfl, rfl, fun s x _ hx => ?_,
        fun k => ⟨⟨rfl, hs.imp id (·.lp k)⟩, rfl, fun X _ => by simp, a3 k⟩, rfl, ?_⟩
      · have : mapLP id s = s := by obtain ⟨a, b⟩ := s; cases a <;> simp [mapLP]
        rw [this]
        exact f2 s x hx
      · show env.lpState = mapLP id env.lpState
        cases env.lpState with
        | mk a b => cases a <;> simp [mapLP]
    have := Corr.computeNext hc (hcm.trans hc) (corr_same h h' hb hne hc hfe) he ev deDup
      (X := X) (X' := X) (pending := pending) (pending' := pending) (ignored := ignored) (ignored' := ignored)
      (fun _ z _ => Iff.rfl) (.inr (.inr fun _ _ => rfl)) (by
        intro q hq
        rcases hs with hs | hs
        · exact .inl hs
        · right
          have hl := hs.logic
          have ha : ∀ t, anchorDesign env.op.anchorLogic = some t → t = "random" := by
            intro t ht
            unfold anchorDesign at ht
            split_ifs at ht
            · cases ht; rfl
          unfold designsDrawn at hq
          cases ev <;> simp at hq <;> aesop)
    rw [this]
    cases computeNext ev env sp context deDup X pending ignored <;> simp

theorem mapState_id (s : BOState) : mapState id id id id s = s := by
  obtain ⟨X, Y, context, numAcq, params, cost, t0, cum, results, world, fits⟩ := s
  obtain ⟨k, u, data⟩ := cost
  have h1 : params.map (List.map (id : Vec → Vec)) = params := by cases params <;> simp
  simp only [mapState, h1, List.map_id, id]
  simp

/-- Runs: the same evaluations, fits, results and exceptions. -/
theorem C156_runs (h : designSpace config cs = .ok sp) (h' : designSpace config cs' = .ok sp')
    (hb : sp.hasBandit = false) (hne : ∀ k ∈ sp.kinds, NonEmptyDom k) {a : RunArgs}
    (envs envs' : BOState → EvalEnv)
    (hf : ∀ c, contextManager sp a.context = .ok c → SameFeasible c.nocontextIndexObj.length cs cs' ∧
      ∀ s, SameAcquisition sp.modelDim c.noncontextIndex.length (envs s) (envs' s))
    (hs : cs'.isSome = cs.isSome ∨ ∀ s, RandomOnly (envs s)) (env : BOEnv) (ev : Evaluator) (deDup : Bool)
    (fuel : Nat) {s : BOState} (hX : s.X ≠ []) (hl : ∀ r ∈ s.X, r.length = sp.expanded.length) :
    runOptimization { env with sp := sp', suggest := stdSuggest sp' ev envs' deDup } a fuel s
      = runOptimization { env with sp := sp, suggest := stdSuggest sp ev envs deDup } a fuel s := by
  have e := designSpace_constraints h h'
  have := runOptimization_corr (env := { env with sp := sp, suggest := stdSuggest sp ev envs deDup })
    (env' := { env with sp := sp', suggest := stdSuggest sp' ev envs' deDup }) (n := sp.expanded.length)
    (E := id) (O := id) (κ := id) (pc := id) (a := a) (a' := a) ?_ ?_ rfl (fun X _ => by rw [List.map_id]) rfl
    ?_ ?_ fuel ⟨hX, hl⟩
  · rw [mapState_id, mapState_id] at this
    exact this
  · intro X hX
    rw [e, List.map_id]
    change sp.unzipInputs X = _
    cases sp.unzipInputs X <;> simp
  · refine ⟨?_, rfl, fun s X Y => ?_, fun s => ?_, fun s => ?_, rfl, rfl, rfl, rfl⟩
    · cases env.obj <;> simp
    · simp [mapState_id]
    · rw [mapState_id]; simp only; cases env.params s <;> simp
    · rw [mapState_id]
  · intro s hc hrows
    rw [mapState_id]
    simp only [stdSuggest]
    rw [C156_suggestions h h' hb hne (env := envs s) (env' := envs' s) (context := s.context)
      (fun c hcm => ?_) (hs.imp id (· s)) ev deDup s.X none none]
    · cases computeNext ev (envs s) sp s.context deDup s.X none none <;> simp
    · rw [hc] at hcm
      exact ⟨(hf c hcm).1, (hf c hcm).2 s⟩
  · intro s m hs hm r hr
    exact computeNext_length hb hm r hr

/-! ### Constraints with the same feasible set -/

/-- Order, repetition and the key do not matter: the same expressions mean the same. -/
theorem C156_set {n : Nat} {l l' : List ConstrDict} (he : CanEvaluate n (some l))
    (hk : ∀ d ∈ l', (constraintOf d).isSome)
    (h : ∀ f, (∃ d ∈ l, constraintOf d = some f) ↔ ∃ d ∈ l', constraintOf d = some f) :
    SameFeasible n (some l) (some l') := by
  have key : ∀ {l : List ConstrDict} {x : Vec}, (∀ d ∈ l, (constraintOf d).isSome) → (Meets (some l) x ↔
      ∀ f, (∃ d ∈ l, constraintOf d = some f) → ∃ v, f x = .ok v ∧ v ≤ 0) := by
    intro l x hk
    constructor
    · rintro hm f ⟨d, hd, hf⟩
      obtain ⟨g, v, h1, h2⟩ := hm l rfl d hd
      rw [hf] at h1; cases h1
      exact ⟨v, h2⟩
    · rintro hm _ ⟨⟩ d hd
      obtain ⟨f, hf⟩ := Option.isSome_iff_exists.1 (hk d hd)
      obtain ⟨v, hv⟩ := hm f ⟨d, hd, hf⟩
      exact ⟨f, v, hf, hv⟩
  have hl : ∀ d ∈ l, (constraintOf d).isSome := by
    intro d hd
    obtain ⟨f, hf, -⟩ := he l rfl d hd
    rw [hf]; rfl
  refine ⟨he, ?_, fun x _ => ?_⟩
  · rintro _ ⟨⟩ d hd
    obtain ⟨f, hf⟩ := Option.isSome_iff_exists.1 (hk d hd)
    obtain ⟨d0, hd0, hf0⟩ := (h f).2 ⟨d, hd, hf⟩
    obtain ⟨g, hg, hv⟩ := he l rfl d0 hd0
    rw [hf0] at hg; cases hg
    exact ⟨f, hf, hv⟩
  · rw [key hk, key hl]
    exact forall_congr' fun f => by rw [h f]

/-- The unit of a constraint does not matter: expressions may be multiplied by a positive factor, which may
depend on the row. -/
theorem C156_scaled {n : Nat} {l l' : List ConstrDict} (he : CanEvaluate n (some l))
    (h : List.Forall₂ (fun d d' => ∃ f f', constraintOf d = some f ∧ constraintOf d' = some f' ∧
      ∀ x : Vec, x.length = n → ∃ k > 0, f' x = (f x).map (k * ·)) l l') :
    SameFeasible n (some l) (some l') := by
  refine ⟨he, ?_, ?_⟩
  · rintro _ ⟨⟩ d' hd'
    obtain ⟨d, hd, f, f', h1, h2, h3⟩ := forall₂_mem_right h hd'
    refine ⟨f', h2, fun x hx => ?_⟩
    obtain ⟨g, hg, hv⟩ := he l rfl d hd
    rw [h1] at hg; cases hg
    obtain ⟨v, hv⟩ := hv x hx
    obtain ⟨k, -, hk⟩ := h3 x hx
    exact ⟨k * v, by rw [hk, hv]; rfl⟩
  · intro x hx
    have key : ∀ {d d' : ConstrDict}, (∃ f f', constraintOf d = some f ∧ constraintOf d' = some f' ∧
        ∀ x : Vec, x.length = n → ∃ k > 0, f' x = (f x).map (k * ·)) →
        ((∃ f v, constraintOf d' = some f ∧ f x = .ok v ∧ v ≤ 0) ↔
          ∃ f v, constraintOf d = some f ∧ f x = .ok v ∧ v ≤ 0) := by
      rintro d d' ⟨f, f', h1, h2, h3⟩
      obtain ⟨k, k0, hk⟩ := h3 x hx
      simp only [h1, h2, Option.some.injEq, exists_and_left, exists_eq_left', hk]
      constructor
      · rintro ⟨v, hv, hv0⟩
        obtain ⟨u, hu, rfl⟩ := Except_map_eq_ok.1 hv
        exact ⟨u, hu, by nlinarith⟩
      · rintro ⟨v, hv, hv0⟩
        exact ⟨k * v, by rw [hv]; rfl, by nlinarith⟩
    have : Feasible l' x ↔ Feasible l x := by
      unfold Feasible
      constructor
      · intro hm d hd
        obtain ⟨d', hd', hr⟩ := forall₂_mem_left h hd
        exact (key hr).1 (hm d' hd')
      · intro hm d' hd'
        obtain ⟨d, hd, hr⟩ := forall₂_mem_right h hd'
        exact (key hr).2 (hm d hd)
    simpa [Meets] using this

/-- A constraint that follows from the others may be added or left out. -/
theorem C156_redundant {n : Nat} {l : List ConstrDict} {d : ConstrDict} (he : CanEvaluate n (some (d :: l)))
    (h : ∀ x : Vec, x.length = n → Feasible l x → Feasible [d] x) :
    SameFeasible n (some l) (some (d :: l)) := by
  refine ⟨?_, he, fun x hx => ?_⟩
  · rintro _ ⟨⟩ c hc
    exact he _ rfl c (by simp [hc])
  · have := h x hx
    simp only [Meets, Option.some.injEq, forall_eq', Feasible, List.forall_mem_cons] at this ⊢
    constructor
    · exact fun hm => hm.2
    · intro hm
      exact ⟨(this hm).1, hm⟩

/-- Constraints that every row meets are no constraints. -/
theorem C156_none {n : Nat} {l : List ConstrDict} (he : CanEvaluate n (some l))
    (h : ∀ x : Vec, x.length = n → Feasible l x) : SameFeasible n none (some l) := by
  refine ⟨by rintro _ ⟨⟩, he, fun x hx => ?_⟩
  simp only [Meets, Option.some.injEq, forall_eq']
  constructor
  · intro _ l' hl'
    cases hl'
  · intro _
    exact h x hx

/-! ### Concrete cases -/

/-- The expression `a * (x[:,0] - 1)`. -/
def firstLe (a : ℚ) : Constr := fun x => match x with
  | [] => .error .indexError
  | v :: _ => .ok (a * (v - 1))

/-- The space of one variable with the values 0, 1, 2. -/
def threeValues (cs : Option (List ConstrDict)) : Space :=
  ⟨[smallDesc "x" [0, 1, 2]], [⟨"x", .discrete [0, 1, 2], 1⟩], [smallDesc "x" [0, 1, 2]],
    [⟨"x", .discrete [0, 1, 2], 0, [0]⟩], cs.map (List.map fixConstr)⟩

example (cs : Option (List ConstrDict)) : designSpace [smallDesc "x" [0, 1, 2]] cs = .ok (threeValues cs) := rfl

/-- Another factor, the old key, and a repeated constraint. -/
theorem firstLe_same : SameFeasible 1 (some [{ constraint := some (firstLe 1) }])
    (some [{ constrain := some (firstLe 2) }, { constraint := some (firstLe 2) }]) := by
  have he : ∀ a, CanEvaluate 1 (some [{ constraint := some (firstLe a) }]) := by
    rintro a _ ⟨⟩ d hd
    rw [List.mem_singleton] at hd
    subst hd
    refine ⟨_, rfl, fun x hx => ?_⟩
    cases x with
    | nil => simp at hx
    | cons v x => exact ⟨_, rfl⟩
  have h1 : SameFeasible 1 (some [{ constraint := some (firstLe 1) }]) (some [{ constraint := some (firstLe 2) }]) := by
    refine C156_scaled (he 1) (.cons ⟨_, _, rfl, rfl, fun x hx => ⟨2, by norm_num, ?_⟩⟩ .nil)
    cases x with
    | nil => simp at hx
    | cons v x => simp [firstLe]
  have h2 := C156_set (l := [{ constraint := some (firstLe 2) }])
    (l' := [{ constrain := some (firstLe 2) }, { constraint := some (firstLe 2) }]) (he 2)
    (by simp [constraintOf]) (fun f => by simp [constraintOf])
  exact ⟨h1.eval, h2.eval', fun x hx => (h2.meets x hx).trans (h1.meets x hx)⟩

/-- Samples in the order 2, 0, 1. -/
def feasibleEnv : EvalEnv :=
  { smallEnv with oracle := ⟨{ smallOracle with
      design := { draws := fun k => ⟨fun _ _ => 0, fun i j => i + j + 2 + k, fun _ _ => 0⟩, lhs := fun _ _ => 0,
                  sobol := fun _ _ => 0, fuel := 2 } }, smallOracle⟩ }

theorem feasible_acquisition (n : Nat) : SameAcquisition 1 n feasibleEnv feasibleEnv :=
  ⟨rfl, fun _ _ => rfl, fun _ _ _ => rfl, fun _ _ _ _ hx _ => ⟨rfl, fun _ hy => by cases hy; exact hx⟩,
    fun _ _ _ _ hx _ => ⟨rfl, fun _ hy => by cases hy; exact hx⟩,
    fun _ _ _ _ _ hx _ => ⟨rfl, fun _ hy => by cases hy; exact hx⟩⟩

/-- The suggestion meets the constraints, however they are written. -/
example :
    computeNext .sequential feasibleEnv (threeValues (some [{ constraint := some (firstLe 1) }])) none true [[0]]
      none none = .ok [[1]] ∧
    computeNext .sequential feasibleEnv (threeValues (some [{ constrain := some (firstLe 2) },
      { constraint := some (firstLe 2) }])) none true [[0]] none none = .ok [[1]] := by
  constructor <;> decide +kernel

/-- A constraint that every row meets is not the same as no constraint for the other designs. -/
theorem C156_none_counterexample : ∃ (config : List Desc) (l : List ConstrDict) (sp sp' : Space)
    (o : DesignOracle) (m : Mat), designSpace config none = .ok sp ∧ designSpace config (some l) = .ok sp' ∧
      SameFeasible sp.dimensionality none (some l) ∧ initialDesign "latin" sp o 2 = .ok m ∧
      initialDesign "latin" sp' o 2 = .error .invalidConfig := by
  refine ⟨[smallDesc "x" [0, 1, 2]], [{ constraint := some fun _ => .ok 0 }], threeValues none,
    threeValues (some _), smallOracle.design, [[0], [1]], rfl, rfl, C156_none ?_ ?_, by decide +kernel, rfl⟩
  · rintro _ ⟨⟩ d hd
    rw [List.mem_singleton] at hd
    subst hd
    exact ⟨_, rfl, fun x _ => ⟨0, rfl⟩⟩
  · intro x _ d hd
    rw [List.mem_singleton] at hd
    subst hd
    exact ⟨_, 0, rfl, rfl, le_refl _⟩

end GPyOpt.Props
