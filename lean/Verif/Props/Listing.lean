import Verif.Lemmas.Listing
import Verif.Props.Feasible
import Verif.Lemmas.Optimizer

/-!
# C168: the values of a variable are a set

The user lists the values of a discrete variable and the categories of a categorical one.  The order of the
list does not matter, nor do repetitions for a discrete variable: to the encodings, the bounds, the domain, the designs
and the suggestions.  Two things do depend on the list: which of two equally near values rounding takes, and how often
a value is drawn at random.
-/

namespace GPyOpt.Props

open GPyOpt Spec

variable {config config' : List Desc} {cs : Option (List ConstrDict)} {sp sp' : Space}

/-- A description is accepted if one with the same values is, and rejected with the same exception. -/
theorem C168_description (h : List.Forall₂ SameDesc config config') (cs : Option (List ConstrDict)) :
    (∀ sp, designSpace config cs = .ok sp → ∃ sp', designSpace config' cs = .ok sp' ∧
      List.Forall₂ SameKind (kindsOf config) (kindsOf config')) ∧
    ∀ e, designSpace config cs = .error e → designSpace config' cs = .error e := by
  have := designSpace_listed h cs
  constructor
  · intro sp hs
    rw [hs] at this
    generalize hu : designSpace config' cs = u at *
    cases this with
    | @ok _ sp' hl =>
      refine ⟨sp', rfl, ?_⟩
      rw [← space_kinds_eq hs, ← space_kinds_eq hu]
      exact hl.kinds
  · intro e hs
    rw [hs] at this
    generalize designSpace config' cs = u at *
    cases this
    rfl

theorem listed_of (h : List.Forall₂ SameDesc config config') (hd : designSpace config cs = .ok sp)
    (hd' : designSpace config' cs = .ok sp') : Listed sp sp' := by
  have := designSpace_listed h cs
  rw [hd, hd'] at this
  cases this with
  | ok hl => exact hl

/-- The encodings, the dimensions, the bounds, the constraints and the contexts are the same, and so are the
domains. -/
theorem C168_encodings (h : List.Forall₂ SameDesc config config') (hd : designSpace config cs = .ok sp)
    (hd' : designSpace config' cs = .ok sp') :
    sp'.unzipInputs = sp.unzipInputs ∧ sp'.zipInputs = sp.zipInputs ∧ sp'.getBounds = sp.getBounds ∧
    sp'.modelDim = sp.modelDim ∧ sp'.objectiveDim = sp.objectiveDim ∧
    sp'.indicatorConstraints = sp.indicatorConstraints ∧ contextManager sp' = contextManager sp ∧
    (∀ x, ObjDomain (kindsOf config') x ↔ ObjDomain (kindsOf config) x) ∧
    ∀ x, ModelDomain (kindsOf config') x ↔ ModelDomain (kindsOf config) x := by
  have hl := listed_of h hd hd'
  refine ⟨hl.unzip, hl.zip, hl.getBounds, hl.modelDim, hl.objectiveDim, hl.indicator, funext hl.contextManager, ?_, ?_⟩
  · intro x
    rw [← space_kinds_eq hd, ← space_kinds_eq hd']
    have := hl.kinds
    generalize sp.kinds = ks at *
    generalize sp'.kinds = ks' at *
    unfold ObjDomain
    induction this generalizing x with
    | nil => rfl
    | cons h1 _ ih => cases x <;> simp [h1.validObj, ih]
  · intro x
    rw [← space_kinds_eq hd, ← space_kinds_eq hd']
    unfold ModelDomain
    have := hl.kinds
    generalize sp.kinds = ks at *
    generalize sp'.kinds = ks' at *
    refine exists_congr fun b => and_congr_left fun hxb => ?_
    clear hxb
    induction this generalizing b with
    | nil => rfl
    | cons h1 _ ih => cases b <;> simp [h1.validBlock, ih]

/-- Rounding gives the same point wherever the nearest value of every discrete variable is unique. -/
theorem C168_rounding (h : List.Forall₂ SameDesc config config') (hd : designSpace config cs = .ok sp)
    (hd' : designSpace config' cs = .ok sp') {x : Vec} (hx : x.length = sp.modelDim)
    (ht : NoTie (kindsOf config) x) : sp'.roundOptimum x = sp.roundOptimum x :=
  (listed_of h hd hd').round hx (by rw [space_kinds_eq hd]; exact ht)

/-- Points of the domain have no ties. -/
theorem C168_noTie (hd : designSpace config cs = .ok sp) (hb : sp.hasBandit = false) {x : Vec}
    (hx : ModelDomain (kindsOf config) x) : NoTie (kindsOf config) x := by
  rw [← space_kinds_eq hd] at hx ⊢
  exact noTie_of_modelDomain (space_noBandit hd hb) hx

/-- Designs of every type are the same if the random numbers draw the same values. -/
theorem C168_designs (h : List.Forall₂ SameDesc config config') (hd : designSpace config cs = .ok sp)
    (hd' : designSpace config' cs = .ok sp') (hb : sp.hasBandit = false) {o o' : DesignOracle}
    (hs : SameValues (kindsOf config) (kindsOf config') o o') (t : String) (n : Nat) :
    initialDesign t sp' o' n = initialDesign t sp o n := by
  rw [← space_kinds_eq hd, ← space_kinds_eq hd'] at hs
  exact (listed_of h hd hd').initialDesign (Listed.noBanditE hd hb) hs t n

/-- Every value that can be drawn from one list can be drawn from the other. -/
theorem drawn_exists {k k' : Kind} (h : SameKind k k') (i : Nat) : ∃ j, drawn k' j = drawn k i := by
  have key : ∀ {l l' : List ℚ}, (∀ x, x ∈ l' ↔ x ∈ l) → ∃ j, l'[j % l'.length]? = l[i % l.length]? := by
    intro l l' hl
    by_cases hn : l = []
    · subst hn
      have : l' = [] := by
        apply List.eq_nil_iff_forall_not_mem.2
        intro x hx
        simpa using (hl x).1 hx
      subst this
      exact ⟨0, rfl⟩
    · have hp := List.length_pos_iff.2 hn
      have hi := Nat.mod_lt i hp
      have hm : l[i % l.length] ∈ l' := (hl _).2 (List.getElem_mem hi)
      obtain ⟨j, hj⟩ := List.mem_iff_getElem?.1 hm
      refine ⟨j, ?_⟩
      have hj' := (List.getElem?_eq_some_iff.1 hj).1
      rw [Nat.mod_eq_of_lt hj', hj, List.getElem?_eq_getElem hi]
  cases h with
  | refl => exact ⟨i, rfl⟩
  | discrete h => exact key h
  | categorical h => exact key fun x => h.mem_iff

/-- Whatever is drawn for one description can be drawn for the other. -/
theorem C168_draws (h : List.Forall₂ SameDesc config config') (hd : designSpace config cs = .ok sp)
    (o : DesignOracle) : ∃ o', SameValues (kindsOf config) (kindsOf config') o o' := by
  obtain ⟨sp', hd', hk⟩ := (C168_description h cs).1 sp hd
  have key : ∀ (i c : Nat), ∃ j, ∀ k k', (kindsOf config)[i]? = some k → (kindsOf config')[i]? = some k' →
      drawn k' j = drawn k c := by
    intro i c
    cases h1 : (kindsOf config)[i]? with
    | none => exact ⟨0, fun _ _ h => by cases h⟩
    | some k =>
      cases h2 : (kindsOf config')[i]? with
      | none => exact ⟨0, fun _ _ _ h => by cases h⟩
      | some k' =>
        obtain ⟨a1, a2⟩ := List.getElem?_eq_some_iff.1 h1
        obtain ⟨b1, b2⟩ := List.getElem?_eq_some_iff.1 h2
        have := (List.forall₂_iff_get.1 hk).2 i a1 b1
        simp only [List.get_eq_getElem, a2, b2] at this
        obtain ⟨j, hj⟩ := drawn_exists this c
        exact ⟨j, fun _ _ e1 e2 => by cases e1; cases e2; exact hj⟩
  choose f hf using key
  exact ⟨{ o with draws := fun t => { o.draws t with choice := fun i r => f i ((o.draws t).choice i r) } },
    rfl, rfl, rfl, fun _ => rfl, fun _ => rfl, fun t r i k k' h1 h2 => hf i _ k k' h1 h2⟩

/-- Number of the positions of a list that draw the value `v`. -/
theorem positions_count (l : List ℚ) (v : ℚ) :
    ((List.range l.length).filter fun i => drawn (.discrete l) i = some v).length = l.count v ∧
    ((List.range l.length).filter fun i => drawn (.categorical l) i = some v).length = l.count v := by
  have key : ((List.range l.length).filter fun i => decide (l[i % l.length]? = some v)).length = l.count v := by
    have e : ((List.range l.length).filter fun i => decide (l[i % l.length]? = some v))
        = (List.range l.length).filter fun i => decide (l[i]? = some v) := by
      apply List.filter_congr
      intro i hi
      rw [Nat.mod_eq_of_lt (List.mem_range.1 hi)]
    rw [e]
    clear e
    induction l with
    | nil => rfl
    | cons a l ih =>
      rw [List.length_cons, List.range_succ_eq_map, List.filter_cons, List.count_cons, ← ih]
      have e2 : ((List.map Nat.succ (List.range l.length)).filter fun i => decide ((a :: l)[i]? = some v)).length
          = ((List.range l.length).filter fun i => decide (l[i]? = some v)).length := by
        rw [List.filter_map, List.length_map]
        rfl
      have e3 : decide ((a :: l)[0]? = some v) = decide (a = v) := by simp
      rw [e3]
      by_cases hav : a = v
      · rw [if_pos (by simpa using hav), List.length_cons, e2, if_pos (by simpa using hav)]
      · rw [if_neg (by simpa using hav), e2, if_neg (by simpa using hav), Nat.add_zero]
  exact ⟨key, key⟩

/-- Each position is drawn with the same chance, so a value is drawn in proportion to the number of times it is listed;
in another order the proportions are the same. -/
theorem C168_frequencies (l : List ℚ) (v : ℚ) :
    ((List.range l.length).filter fun i => drawn (.discrete l) i = some v).length = l.count v ∧
    ((List.range l.length).filter fun i => drawn (.categorical l) i = some v).length = l.count v ∧
    ∀ l' : List ℚ, l'.Perm l → l'.length = l.length ∧ l'.count v = l.count v :=
  ⟨(positions_count l v).1, (positions_count l v).2, fun _ h => ⟨h.length_eq, h.count_eq v⟩⟩

/-- What a batch of Thompson samples needs of the sampled locations. -/
structure ThompsonReady (sp : Space) (context : Option Context) (env : EvalEnv) : Prop where
  samplable : ∀ k ∈ sp.kinds, Samplable k
  context : ValidContext sp context
  unit : UnitOracle env.oracle.batch.design
  samples : 0 < env.numSamplesThompson
  score : ScoreShape env.oracle.batch.thompson
  argsort : IsArgsort env.oracle.batch.argsort

/-- Suggestions: the same, if no result of a local optimizer is half way between two values. -/
theorem C168_suggestions_partial (h : List.Forall₂ SameDesc config config') (hd : designSpace config cs = .ok sp)
    (hd' : designSpace config' cs = .ok sp') (hb : sp.hasBandit = false) (hne : ∀ k ∈ sp.kinds, NonEmptyDom k)
    {env env' : EvalEnv} {context : Option Context}
    (he : ∀ c, contextManager sp context = .ok c →
      CorrEnv sp.modelDim c.noncontextIndex.length id id (SameValues (freeKinds sp c) (freeKinds sp' c)) env env' ∧
      EnvOk sp c (NoTie sp.kinds) env)
    (ev : Evaluator) (hT : ∀ n, ev = .thompson n → ThompsonReady sp context env) (deDup : Bool) (X : Mat)
    (pending ignored : Option Mat) :
    computeNext ev env' sp' context deDup X pending ignored
      = computeNext ev env sp context deDup X pending ignored := by
  have hl := listed_of h hd hd'
  cases hc : contextManager sp context with
  | error err => simp only [computeNext, hl.contextManager, hc]
  | ok c =>
    obtain ⟨he, hok⟩ := he c hc
    have := Corr.computeNext_ok hc ((hl.contextManager context).trans hc) (corr_listed hd hd' hl hb hne hc) he hok ev
      deDup (X := X) (X' := X) (pending := pending) (pending' := pending) (ignored := ignored) (ignored' := ignored)
      (fun _ z _ => Iff.rfl) (.inr (.inr fun _ _ => rfl)) (fun _ _ => trivial) (by
        intro n A hev hA a ha
        obtain ⟨t1, t2, t3, t4, t5, t6⟩ := hT n hev
        obtain ⟨z, hz, -⟩ := (anchorPoints_sound hd hb t1 t2 hc t3 (by simp) t4 t5 t6 hA).1 a ha
        obtain ⟨rfl, hz, -⟩ := hz
        exact noTie_of_modelDomain (space_noBandit hd hb) (encodeRow_modelDomain hz))
    rw [this]
    cases computeNext ev env sp context deDup X pending ignored <;> simp

/-- Runs: the same evaluations, fits, results and exceptions. -/
theorem C168_runs_partial (h : List.Forall₂ SameDesc config config') (hd : designSpace config cs = .ok sp)
    (hd' : designSpace config' cs = .ok sp') (hb : sp.hasBandit = false) (hne : ∀ k ∈ sp.kinds, NonEmptyDom k)
    {a : RunArgs} (envs envs' : BOState → EvalEnv)
    (he : ∀ c, contextManager sp a.context = .ok c → ∀ s,
      CorrEnv sp.modelDim c.noncontextIndex.length id id (SameValues (freeKinds sp c) (freeKinds sp' c)) (envs s) (envs' s) ∧
      EnvOk sp c (NoTie sp.kinds) (envs s))
    (env : BOEnv) (ev : Evaluator) (hT : ∀ n, ev = .thompson n → ∀ s, ThompsonReady sp a.context (envs s)) (deDup : Bool)
    (fuel : Nat) {s : BOState} (hX : s.X ≠ []) (hl : ∀ r ∈ s.X, r.length = sp.expanded.length) :
    runOptimization { env with sp := sp', suggest := stdSuggest sp' ev envs' deDup } a fuel s
      = runOptimization { env with sp := sp, suggest := stdSuggest sp ev envs deDup } a fuel s := by
  have hls := listed_of h hd hd'
  have := runOptimization_corr (env := { env with sp := sp, suggest := stdSuggest sp ev envs deDup })
    (env' := { env with sp := sp', suggest := stdSuggest sp' ev envs' deDup }) (n := sp.expanded.length)
    (E := id) (O := id) (κ := id) (pc := id) (a := a) (a' := a) ?_ ?_ rfl (fun X _ => by rw [List.map_id]) rfl
    ?_ ?_ fuel ⟨hX, hl⟩
  · rw [mapState_id, mapState_id] at this
    exact this
  · intro X hX
    simp only [hls.unzip, List.map_id]
    cases sp.unzipInputs X <;> simp
  · refine ⟨?_, rfl, fun s X Y => ?_, fun s => ?_, fun s => ?_, rfl, rfl, rfl, rfl⟩
    · cases env.obj <;> simp
    · simp [mapState_id]
    · rw [mapState_id]; simp only; cases env.params s <;> simp
    · rw [mapState_id]
  · intro s hc hrows
    rw [mapState_id]
    simp only [stdSuggest]
    rw [C168_suggestions_partial h hd hd' hb hne (env := envs s) (env' := envs' s) (context := s.context)
      (fun c hcm => ?_) ev (fun n hn => ?_) deDup s.X none none]
    · cases computeNext ev (envs s) sp s.context deDup s.X none none <;> simp
    · rw [hc] at hcm
      exact he c hcm s
    · rw [hc]
      exact hT n hn s
  · intro s m hs hm r hr
    exact computeNext_length hb hm r hr

/-! ### Concrete cases -/

/-- A discrete and a categorical variable, and the same values in another order, one of them twice. -/
example : List.Forall₂ SameDesc
    [smallDesc "x" [0, 1, 2], { name := some "c", type := some "categorical", domain := some (.flat [0, 1, 2]) }]
    [smallDesc "x" [2, 0, 1, 1], { name := some "c", type := some "categorical", domain := some (.flat [2, 0, 1]) }] := by
  refine .cons ⟨rfl, rfl, rfl, .discrete fun x => ?_⟩ (.cons ⟨rfl, rfl, rfl, .categorical ?_⟩ .nil)
  · simp only [List.mem_cons, List.not_mem_nil, or_false]
    tauto
  · decide

/-- The space of one discrete variable. -/
def valuesSpace (l : List ℚ) : Space :=
  ⟨[smallDesc "x" l], [⟨"x", .discrete l, 1⟩], [smallDesc "x" l], [⟨"x", .discrete l, 0, [0]⟩], none⟩

theorem valuesSpace_eq (l : List ℚ) : designSpace [smallDesc "x" l] none = .ok (valuesSpace l) := rfl

theorem values_same : List.Forall₂ SameDesc [smallDesc "x" [0, 1, 2]] [smallDesc "x" [2, 1, 0, 1]] := by
  refine .cons ⟨rfl, rfl, rfl, .discrete fun x => ?_⟩ .nil
  simp only [List.mem_cons, List.not_mem_nil, or_false]
  tauto

/-- Random numbers that draw the entries `f j`. -/
def listOracle (f : Nat → Nat) : DesignOracle :=
  { draws := fun _ => ⟨fun _ _ => 0, fun _ j => f j, fun _ _ => 0⟩, lhs := fun _ _ => 0, sobol := fun _ _ => 0, fuel := 1 }

/-- An optimization whose local optimizer ends at `y`. -/
def listEnv (f : Nat → Nat) (y : ℚ) : EvalEnv :=
  { smallEnv with
    oracle := ⟨{ smallOracle with design := listOracle f, opt := fun _ _ _ => .ok [y] },
      { smallOracle with design := listOracle f, opt := fun _ _ _ => .ok [y] }⟩
    acqLP := fun _ => { smallOracle with design := listOracle f, opt := fun _ _ _ => .ok [y] } }

/-- The positions of 0, 1, 2 in the second list. -/
def secondPos (j : Nat) : Nat := if j % 3 = 0 then 2 else if j % 3 = 1 then 1 else 0

theorem list_values : SameValues [.discrete [0, 1, 2]] [.discrete [2, 1, 0, 1]] (listOracle id) (listOracle secondPos) := by
  refine ⟨rfl, rfl, rfl, fun _ => rfl, fun _ => rfl, ?_⟩
  intro t r i k k' h h'
  cases i with
  | succ i => simp at h
  | zero =>
    cases h
    cases h'
    simp only [drawn, listOracle, secondPos, id, List.length_cons, List.length_nil]
    have := Nat.mod_lt r (show 0 < 3 by omega)
    generalize r % 3 = m at *
    match m, this with
    | 0, _ => rfl
    | 1, _ => rfl
    | 2, _ => rfl

/-- The hypotheses of the theorem about suggestions hold: the local optimizer ends near 2. -/
example (c : Ctx) (hc : contextManager (valuesSpace [0, 1, 2]) none = .ok c) :
    CorrEnv (valuesSpace [0, 1, 2]).modelDim c.noncontextIndex.length id id
      (SameValues (freeKinds (valuesSpace [0, 1, 2]) c) (freeKinds (valuesSpace [2, 1, 0, 1]) c))
      (listEnv id (7 / 4)) (listEnv secondPos (7 / 4)) ∧
    EnvOk (valuesSpace [0, 1, 2]) c (NoTie (valuesSpace [0, 1, 2]).kinds) (listEnv id (7 / 4)) := by
  have e : contextManager (valuesSpace [0, 1, 2]) none = .ok ⟨[], [], [], [0], [0], [(0, 2)]⟩ := by
    have hb : (valuesSpace [0, 1, 2]).getBounds = .ok [(0, 2)] := by decide +kernel
    simp only [contextManager, hb]; rfl
  rw [e] at hc
  cases hc
  have hw : SameWork 1 id (fun _ _ => .ok [7 / 4]) (fun _ _ => .ok [7 / 4]) :=
    fun _ _ _ _ _ => ⟨rfl, fun _ hy => by cases hy; rfl⟩
  have ho : OptOk (valuesSpace [0, 1, 2]) ⟨[], [], [], [0], [0], [(0, 2)]⟩ (NoTie (valuesSpace [0, 1, 2]).kinds)
      (fun _ _ => .ok [7 / 4]) := by
    intro g x y yc hy hyc
    cases hy
    cases hyc
    refine ⟨?_, trivial⟩
    decide +kernel
  refine ⟨⟨rfl, fun _ _ => rfl, ⟨list_values, rfl, fun X _ => by simp [listEnv, smallOracle], fun _ => hw⟩,
    ⟨list_values, rfl, fun X _ => by simp [listEnv, smallOracle], fun _ => hw⟩, rfl, rfl, fun _ _ _ _ => rfl,
    fun _ => ⟨list_values, rfl, fun X _ => by simp [listEnv, smallOracle], fun _ => hw⟩, rfl, rfl⟩, fun _ => ho, fun _ => ho, fun _ _ => ho⟩

/-- Both lists lead to the value 2. -/
example :
    computeNext .sequential (listEnv id (7 / 4)) (valuesSpace [0, 1, 2]) none true [[0]] none none = .ok [[2]] ∧
    computeNext .sequential (listEnv secondPos (7 / 4)) (valuesSpace [2, 1, 0, 1]) none true [[0]] none none = .ok [[2]] := by
  constructor <;> decide +kernel

/-- Half way between two values the list decides: the first of the two in the list is suggested. -/
theorem C168_tie_counterexample :
    List.Forall₂ SameDesc [smallDesc "x" [0, 1, 2]] [smallDesc "x" [2, 1, 0, 1]] ∧
    (valuesSpace [0, 1, 2]).roundOptimum [3 / 2] = .ok [[1]] ∧
    (valuesSpace [2, 1, 0, 1]).roundOptimum [3 / 2] = .ok [[2]] ∧
    computeNext .sequential (listEnv id (3 / 2)) (valuesSpace [0, 1, 2]) none true [[0]] none none = .ok [[1]] ∧
    computeNext .sequential (listEnv secondPos (3 / 2)) (valuesSpace [2, 1, 0, 1]) none true [[0]] none none = .ok [[2]] := by
  refine ⟨values_same, by decide +kernel, by decide +kernel, by decide +kernel, by decide +kernel⟩

/-- A value that is listed twice is drawn twice as often. -/
theorem C168_weight_counterexample :
    SameKind (.discrete [0, 1]) (.discrete [0, 1, 1]) ∧
    ((List.range 2).filter fun i => drawn (.discrete [0, 1]) i = some 1).length = 1 ∧
    ((List.range 3).filter fun i => drawn (.discrete [0, 1, 1]) i = some 1).length = 2 := by
  refine ⟨.discrete fun x => ?_, by decide +kernel, by decide +kernel⟩
  simp only [List.mem_cons, List.not_mem_nil, or_false]
  tauto

end GPyOpt.Props
