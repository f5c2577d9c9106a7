import Verif.Spec.Units
import Verif.Lemmas.UnitsNext
import Verif.Lemmas.Gauss
import Verif.Model.LocalPenalization

/-!
# C154: the units of the variables do not matter

The specification is `Verif/Spec/Units.lean`: a unit `(a, b)` turns the value `x` into `a * x + b`.
The theorems say that every step commutes with the change of units: what is done in metres and
converted is what is done in centimetres. The model, the acquisition and the local optimizer enter
as functions that give the same values at corresponding locations.
-/

namespace GPyOpt.Props

open GPyOpt Spec

variable {us : List (ℚ × ℚ)} {sp sp' : Space}

/-! ## Descriptions and spaces -/

/-- The description of a domain in other units builds the same space in other units: no exception
appears, the names are the same. -/
theorem C154_description {ws : List (ℚ × ℚ)} {ds : List Desc} (hw : List.Forall₂ DescUnit ws ds)
    {cs : Option (List ConstrDict)} (h : designSpace ds cs = .ok sp) (cs' : Option (List ConstrDict)) :
    ∃ sp', designSpace (List.zipWith convDesc ws ds) cs' = .ok sp' ∧
      OtherUnits (descUnits ws ds) sp sp' ∧
      sp'.expanded.map EVar.name = sp.expanded.map EVar.name ∧
      sp'.constraints = cs'.map (List.map fixConstr) :=
  designSpace_conv hw h cs'

/-- Encoding, decoding, rounding and bounds. -/
theorem C154_encodings (h : OtherUnits us sp sp') (X : Mat) :
    sp'.unzipInputs (X.map (convRow us))
        = (sp.unzipInputs X).map (List.map (convRow (colUnits us sp.kinds))) ∧
      sp'.zipInputs (X.map (convRow (colUnits us sp.kinds)))
        = (sp.zipInputs X).map (List.map (convRow us)) ∧
      (∀ x : Vec, x.length = sp.modelDim → sp'.roundOptimum2d [convRow (colUnits us sp.kinds) x]
        = (sp.roundOptimum2d [x]).map (List.map (convRow (colUnits us sp.kinds)))) ∧
      sp'.getBounds = sp.getBounds.map (convBounds (colUnits us sp.kinds)) :=
  ⟨h.unzipInputs X, h.zipInputs X, fun _ hx => h.roundOptimum2d hx, h.getBounds⟩

/-- The same points are feasible. -/
theorem C154_feasible (h : OtherUnits us sp sp')
    (hc : SameConstraints us sp.constraints sp'.constraints) (X : Mat) :
    sp'.indicatorConstraints (X.map (convRow us)) = sp.indicatorConstraints X :=
  h.indicator hc X

/-- With the same random numbers an initial design, of any of the four kinds, is the same design in
other units. -/
theorem C154_designs (h : OtherUnits us sp sp')
    (hc : SameConstraints us sp.constraints sp'.constraints) (name : String) (o : DesignOracle) (n : Nat) :
    initialDesign name sp' o n = (initialDesign name sp o n).map (List.map (convRow us)) :=
  h.initialDesign hc name o n

/-! ## Suggestions -/

/-- A suggestion (any evaluator, any context, with or without duplicate logic) is the same suggestion in
other units. With duplicate logic, pending and ignored points and random batches need units without
shift: the code asks with `np.any` whether there are any (see `C154_pending_counterexample`). -/
theorem C154_suggestions_partial (h : OtherUnits us sp sp')
    (hn : sp'.expanded.map EVar.name = sp.expanded.map EVar.name) (ev : Evaluator) {env env' : EvalEnv}
    {context : Option Context} (hnd : ((context.getD []).map Prod.fst).Nodup)
    (hc : ∀ c, contextManager sp context = .ok c →
      SameConstraints (pickUnits us c.nocontextIndexObj) sp.constraints sp'.constraints ∧
        SameEnv (colUnits us sp.kinds) c env env')
    (deDup : Bool) (X : Mat) (pending ignored : Option Mat)
    (hz : deDup = false ∨ (∀ u ∈ us, u.2 = 0) ∨
      (pending = none ∧ ignored = none ∧ ∀ n, ev ≠ .random n)) :
    computeNext ev env' sp' (context.map (convContext us sp)) deDup (X.map (convRow us))
        (pending.map (List.map (convRow us))) (ignored.map (List.map (convRow us)))
      = (computeNext ev env sp context deDup X pending ignored).map (List.map (convRow us)) :=
  h.computeNext hn ev hnd hc deDup X pending ignored hz

/-! ## Runs -/

/-- With a negative tolerance the stopping rule never fires, in any units. -/
theorem C154_stop_off {eps eps' : ℚ} (h : eps < 0) (h' : eps' < 0) : SameStop us eps eps' := by
  intro X _
  have key : ∀ (e : ℚ) (X : Mat), e < 0 → lastTwoClose e X = false := by
    intro e X he
    unfold lastTwoClose
    split
    · simp [not_le.2 he]
    · rfl
  rw [key _ _ h, key _ _ h']

theorem rowSqDist_conv {a : ℚ} : ∀ {us : List (ℚ × ℚ)} {x y : Vec}, (∀ u ∈ us, u.1 = a) →
    x.length = us.length → y.length = us.length →
    rowSqDist (convRow us x) (convRow us y) = a ^ 2 * rowSqDist x y := by
  intro us
  induction us with
  | nil => intro x y _ hx hy; rw [List.length_nil, List.length_eq_zero_iff] at hx hy; subst hx hy; simp [rowSqDist, convRow]
  | cons u us ih =>
    intro x y hu hx hy
    cases x with
    | nil => simp at hx
    | cons p x =>
      cases y with
      | nil => simp at hy
      | cons q y =>
        have := ih (x := x) (y := y) (fun w hw => hu w (by simp [hw])) (by simpa using hx) (by simpa using hy)
        unfold rowSqDist at this ⊢
        simp only [convRow, List.zipWith_cons_cons, List.map_cons, List.sum_cons, this, conv, hu u (by simp)]
        ring

/-- If all variables change by the same factor, so does the tolerance. -/
theorem C154_stop_scale {a eps : ℚ} (ha : 0 < a) (hu : ∀ u ∈ us, u.1 = a) : SameStop us eps (a * eps) := by
  intro X hX
  unfold lastTwoClose
  rw [← List.map_reverse]
  cases hr : X.reverse with
  | nil => rfl
  | cons x l =>
    cases l with
    | nil => rfl
    | cons y l =>
      have hx : x.length = us.length := hX x (List.mem_reverse.1 (by rw [hr]; simp))
      have hy : y.length = us.length := hX y (List.mem_reverse.1 (by rw [hr]; simp))
      simp only [List.map_cons, rowSqDist_conv hu hx hy, mul_pow]
      congr 1
      rw [mul_nonneg_iff_of_pos_left ha, mul_le_mul_iff_right₀ (by positivity)]

/-- A run (`run_optimization` with the suggestions of `C154_suggestions_partial`, from any state of the
optimizer, to any limits) is the same run in other units: the same evaluations, costs, fits, results and
exceptions, up to conversion. The tolerance of the stopping rule has to be converted as well. -/
theorem C154_runs_partial (h : OtherUnits us sp sp')
    (hn : sp'.expanded.map EVar.name = sp.expanded.map EVar.name) {pc : Vec → Vec} {env env' : BOEnv}
    (hp : SameParts us sp pc env env') {a a' : RunArgs} (hnd : ((a.context.getD []).map Prod.fst).Nodup)
    (hlim : a'.limits = a.limits) (hstop : SameStop us a.eps a'.eps)
    (ha : a'.context = a.context.map (convContext us sp))
    (ev : Evaluator) (deDup : Bool) (hz : deDup = false ∨ (∀ u ∈ us, u.2 = 0) ∨ ∀ n, ev ≠ .random n)
    (envs envs' : BOState → EvalEnv)
    (hc : ∀ c, contextManager sp a.context = .ok c →
      SameConstraints (pickUnits us c.nocontextIndexObj) sp.constraints sp'.constraints ∧
        ∀ s, SameEnv (colUnits us sp.kinds) c (envs s) (envs' (convState us (colUnits us sp.kinds) sp pc s)))
    (fuel : Nat) {s : BOState} (hl : ∀ r ∈ s.X, r.length = us.length) :
    runOptimization { env' with sp := sp', suggest := stdSuggest sp' ev envs' deDup } a' fuel
        (convState us (colUnits us sp.kinds) sp pc s)
      = (convState us (colUnits us sp.kinds) sp pc
            (runOptimization { env with sp := sp, suggest := stdSuggest sp ev envs deDup } a fuel s).1,
          (runOptimization { env with sp := sp, suggest := stdSuggest sp ev envs deDup } a fuel s).2) := by
  refine runOptimization_conv (env := { env with sp := sp, suggest := stdSuggest sp ev envs deDup })
    (env' := { env' with sp := sp', suggest := stdSuggest sp' ev envs' deDup }) h
    ⟨hp.obj, hp.clock, hp.fit, hp.params, hp.costFit, hp.lg, hp.normalizeY, hp.normalize, hp.interval⟩
    rfl rfl hlim hstop ha ?_ ?_ fuel hl
  · intro s hs
    simp only [stdSuggest]
    have := h.computeNext hn ev (env := envs s)
      (env' := envs' (convState us (colUnits us sp.kinds) sp pc s)) (context := s.context)
      (by rw [hs]; exact hnd) (fun c hcm => by
        rw [hs] at hcm
        exact ⟨(hc c hcm).1, (hc c hcm).2 s⟩) deDup s.X none none (by
          rcases hz with hz | hz | hz
          · exact .inl hz
          · exact .inr (.inl hz)
          · exact .inr (.inr ⟨rfl, rfl, hz⟩))
    exact this
  · intro s m hs hm r hr
    have := computeNext_length h.noBandit hm r hr
    rw [this, ← List.length_map (f := EVar.kind), h.units.length_eq]

/-! ## Examples, and what does depend on the units -/

/-- A space of one variable, for the examples. -/
def unitsSpace (type : String) (k : Kind) (vals : List ℚ) : Space :=
  let d : Desc := { name := some "x", type := some type, domain := some (.flat vals) }
  ⟨[d], [⟨"x", k, 1⟩], [d], [⟨"x", k, 0, [0]⟩], none⟩

theorem unitsSpace_discrete (vals : List ℚ) :
    designSpace [{ name := some "x", type := some "discrete", domain := some (.flat vals) }] none
      = .ok (unitsSpace "discrete" (.discrete vals) vals) := rfl

theorem unitsSpace_continuous (lo hi : ℚ) :
    designSpace [{ name := some "x", type := some "continuous", domain := some (.flat [lo, hi]) }] none
      = .ok (unitsSpace "continuous" (.continuous lo hi) [lo, hi]) := rfl

/-- A local optimizer that stays where it starts, and draws that alternate. -/
def unitsOracle : AcqOracle :=
  { design := { draws := fun _ => ⟨fun _ _ => 0, fun i j => i + j, fun _ _ => 0⟩, lhs := fun _ _ => 0,
                sobol := fun _ _ => 0, fuel := 1 }
    argsort := fun l => List.range l.length, thompson := fun X => .ok (X.map fun _ => 0)
    opt := fun _ _ x => .ok x }

/-- The acquisition is the variable, in the unit `(1, b)`. -/
def unitsEnv (b : ℚ) : EvalEnv :=
  { op := { numSamplesObjective := 2 }, f := fun x => .ok (x.headD b - b)
    oracle := ⟨unitsOracle, unitsOracle⟩, numSamplesRandom := 2, numSamplesThompson := 2
    fLP := fun _ x => .ok (x.headD b - b), acqLP := fun _ => unitsOracle, lpConsts := .ok (1, 0)
    lpState := ⟨none, none⟩ }

theorem unitsOracle_same (cu : List (ℚ × ℚ)) (c : Ctx) : SameOracle cu c unitsOracle unitsOracle :=
  ⟨rfl, rfl, fun X => by simp [unitsOracle], fun _ g g' x hx _ => ⟨rfl, fun y hy => by cases hy; exact hx⟩⟩

theorem unitsEnv_same (b : ℚ) (c : Ctx) : SameEnv [(1, b)] c (unitsEnv 0) (unitsEnv b) := by
  have hf : ∀ x : Vec, (convRow [(1, b)] x).headD b - b = x.headD 0 - 0 := by
    intro x
    cases x with
    | nil => simp [convRow]
    | cons x xs => simp [convRow, conv]
  exact ⟨rfl, fun x => congrArg Except.ok (hf x), unitsOracle_same _ c, unitsOracle_same _ c, rfl, rfl,
    fun s x => congrArg Except.ok (hf x), fun _ => unitsOracle_same _ c, rfl, rfl⟩

theorem unitsSpace_other (u : ℚ × ℚ) (hu : 0 < u.1) :
    OtherUnits [u] (unitsSpace "discrete" (.discrete [0, 1]) [0, 1])
      (unitsSpace "discrete" (.discrete [conv u 0, conv u 1]) [conv u 0, conv u 1]) :=
  ⟨⟨_, none, unitsSpace_discrete _⟩, ⟨_, none, unitsSpace_discrete _⟩, rfl, rfl, .cons ⟨hu, trivial⟩ .nil,
    rfl⟩

/-- Degrees Celsius into Fahrenheit, metres into centimetres, a category. -/
example : ∃ sp, designSpace
    [{ name := some "t", domain := some (.flat [0, 100]), dimensionality := some 2 },
     { name := some "l", type := some "discrete", domain := some (.flat [1, 2, 5]) },
     { name := some "c", type := some "categorical", domain := some (.flat [0, 1, 2]) }] none = .ok sp ∧
    List.Forall₂ DescUnit [(9 / 5, 32), (100, 0), (1, 0)] sp.config ∧
    descUnits [(9 / 5, 32), (100, 0), (1, 0)] sp.config = [(9 / 5, 32), (9 / 5, 32), (100, 0), (1, 0)] ∧
    colUnits [(9 / 5, 32), (9 / 5, 32), (100, 0), (1, 0)] sp.kinds
      = [(9 / 5, 32), (9 / 5, 32), (100, 0), (1, 0), (1, 0), (1, 0)] := by
  refine ⟨_, rfl, .cons ⟨by norm_num, by decide, by decide⟩ (.cons ⟨by norm_num, by decide, by decide⟩
    (.cons ⟨by norm_num, by decide, by decide⟩ .nil)), by decide +kernel, by decide +kernel⟩

/-- `x + y ≤ 10` in metres, and in centimetres. -/
example : SameConstraints [(100, 0), (100, 0)]
    (some [{ constraint := some fun x => match x with | [x, y] => .ok (x + y - 10) | _ => .error .indexError }])
    (some [{ constraint := some fun x => match x with | [x, y] => .ok (x + y - 1000) | _ => .error .indexError }])
    := by
  refine .some (.cons ?_ .nil)
  simp only [SameVerdict, constraintOf]
  intro x
  match x with
  | [] => rfl
  | [_] => rfl
  | [x, y] =>
    simp only [convRow, conv, Except.map, Except.ok.injEq, decide_eq_decide]
    constructor <;> intro h <;> linarith
  | _ :: _ :: _ :: _ => rfl

/-- Suggestions in both units, with shift and without. -/
example : computeNext .sequential (unitsEnv 0) (unitsSpace "discrete" (.discrete [0, 1]) [0, 1]) none true
      [[0]] none none = .ok [[1]] ∧
    computeNext .sequential (unitsEnv 3) (unitsSpace "discrete" (.discrete [3, 4]) [3, 4]) none true
      [[3]] none none = .ok [[4]] := by
  constructor <;> decide +kernel

/-- Parts of a run that correspond: the objective in the other unit, a model whose parameter is a length. -/
example : SameParts [(2, 1)] (unitsSpace "continuous" (.continuous 0 1) [0, 1]) (List.map (2 * ·))
    { sp := unitsSpace "continuous" (.continuous 0 1) [0, 1], obj := some fun _ x => .ok (x.headD 0)
      clock := fun n => n, fit := fun s _ _ => if s.X.length = 3 then .error .linAlg else .ok ()
      params := fun s => .ok [s.X.length], costFit := fun _ => .ok ()
      lg := id, suggest := fun _ _ _ => .ok [], normalizeY := false, normalize := id, interval := 1 }
    { sp := unitsSpace "continuous" (.continuous 1 3) [1, 3], obj := some fun _ x => .ok ((x.headD 1 - 1) / 2)
      clock := fun n => n, fit := fun s _ _ => if s.X.length = 3 then .error .linAlg else .ok ()
      params := fun s => .ok [2 * s.X.length], costFit := fun _ => .ok ()
      lg := id, suggest := fun _ _ _ => .ok [], normalizeY := false, normalize := id, interval := 1 } := by
  refine ⟨fun _ x => ?_, rfl, fun s X Y => ?_, fun s => ?_, fun _ => rfl, rfl, rfl, rfl, rfl⟩
  · cases x with
    | nil => simp [convRow]
    | cons x xs => simp [convRow, conv]
  · simp [convState]
  · simp [convState, Except.map]

/-- A pending point at the origin is not seen as pending; in shifted units it is. The suggestion, which
must not repeat it, differs: `0` is suggested although it is pending, but in the other unit the other
value is. -/
theorem C154_pending_counterexample : ∃ (us : List (ℚ × ℚ)) (sp sp' : Space) (env env' : EvalEnv)
    (pending : Mat), OtherUnits us sp sp' ∧ sp'.expanded.map EVar.name = sp.expanded.map EVar.name ∧
      (∀ c, contextManager sp none = .ok c →
        SameConstraints (pickUnits us c.nocontextIndexObj) sp.constraints sp'.constraints ∧
          SameEnv (colUnits us sp.kinds) c env env') ∧
      computeNext .sequential env sp none true [] (some pending) none = .ok pending ∧
      ∃ m, computeNext .sequential env' sp' none true [] (some (pending.map (convRow us))) none = .ok m ∧
        m ≠ pending.map (convRow us) := by
  refine ⟨[(1, 1)], _, _, unitsEnv 0, unitsEnv 1, [[0]], unitsSpace_other (1, 1) (by norm_num), rfl,
    fun c _ => ⟨.none, unitsEnv_same 1 c⟩, by decide +kernel, [[2]], by decide +kernel, by decide +kernel⟩

/-- A random batch with duplicate logic drops an acquisition optimum at the origin (`np.any`); in shifted
units it is kept. -/
theorem C154_random_batch_counterexample : ∃ (us : List (ℚ × ℚ)) (sp sp' : Space) (env env' : EvalEnv)
    (n : Nat), OtherUnits us sp sp' ∧ sp'.expanded.map EVar.name = sp.expanded.map EVar.name ∧
      (∀ c, contextManager sp none = .ok c →
        SameConstraints (pickUnits us c.nocontextIndexObj) sp.constraints sp'.constraints ∧
          SameEnv (colUnits us sp.kinds) c env env') ∧
      ∃ m m', computeNext (.random n) env sp none true [] none none = .ok m ∧
        computeNext (.random n) env' sp' none true [] none none = .ok m' ∧ m' ≠ m.map (convRow us) := by
  let last : AcqOracle := { unitsOracle with argsort := fun l => (List.range l.length).reverse }
  have hl : ∀ cu c, SameOracle cu c last last := fun cu c =>
    ⟨rfl, rfl, (unitsOracle_same cu c).thompson, (unitsOracle_same cu c).opt⟩
  refine ⟨[(1, 1)], _, _, { unitsEnv 0 with oracle := ⟨unitsOracle, last⟩ },
    { unitsEnv 1 with oracle := ⟨unitsOracle, last⟩ }, 1, unitsSpace_other (1, 1) (by norm_num), rfl,
    fun c _ => ⟨.none, ?_⟩, [[1]], [[1], [2]], by decide +kernel, by decide +kernel, by decide +kernel⟩
  have h := unitsEnv_same 1 c
  exact ⟨h.op, h.f, h.acq, hl _ c, h.samplesRandom, h.samplesThompson, h.fLP, h.acqLP, h.lpConsts, h.lpState⟩

/-- The default tolerance `1e-8` is in the units of the variables: a run in metres goes on where the same
run in kilometres stops, with the same components. -/
theorem C154_stop_counterexample : ∃ (us : List (ℚ × ℚ)) (sp sp' : Space) (env env' : BOEnv)
    (a : RunArgs) (s : BOState), a.eps = 1 / 10 ^ 8 ∧ OtherUnits us sp sp' ∧ SameParts us sp id env env' ∧
      env.sp = sp ∧ env'.sp = sp' ∧
      (∀ s p i, env'.suggest (convState us (colUnits us sp.kinds) sp id s) p i
        = (env.suggest s p i).map (List.map (convRow us))) ∧
      (runOptimization env a 5 s).1.world.calls = [([500], .ok 1)] ∧
      (runOptimization env' a 5 (convState us (colUnits us sp.kinds) sp id s)).1.world.calls = [] := by
  refine ⟨[(1 / 1000, 0)], unitsSpace "continuous" (.continuous 0 1000) [0, 1000],
    unitsSpace "continuous" (.continuous 0 1) [0, 1],
    { sp := unitsSpace "continuous" (.continuous 0 1000) [0, 1000], obj := some fun _ _ => .ok 1
      clock := fun n => n, fit := fun _ _ _ => .ok (), params := fun _ => .ok [], costFit := fun _ => .ok ()
      lg := id, suggest := fun _ _ _ => .ok [[500]], normalizeY := false, normalize := id, interval := 1 },
    { sp := unitsSpace "continuous" (.continuous 0 1) [0, 1], obj := some fun _ _ => .ok 1
      clock := fun n => n, fit := fun _ _ _ => .ok (), params := fun _ => .ok [], costFit := fun _ => .ok ()
      lg := id, suggest := fun _ _ _ => .ok [[1 / 2]], normalizeY := false, normalize := id, interval := 1 },
    { maxIter := some (.fin 1) },
    boInit [[0], [1 / 10 ^ 6]] (some [1, 1]) .none, rfl, ?_, ?_, rfl, rfl, ?_, ?_, ?_⟩
  · exact ⟨⟨_, none, unitsSpace_continuous _ _⟩, ⟨_, none, unitsSpace_continuous _ _⟩, rfl, rfl,
      .cons ⟨by norm_num, trivial⟩ .nil, by decide +kernel⟩
  · exact ⟨fun _ _ => rfl, rfl, fun _ _ _ => rfl, fun _ => rfl, fun _ => rfl, rfl, rfl, rfl, rfl⟩
  · intro _ _ _
    show (Except.ok [[1 / 2]] : Py Mat) = Except.map (List.map (convRow [(1 / 1000, 0)])) (.ok [[500]])
    decide +kernel
  · decide +kernel
  · decide +kernel

/-! ## The penalizers of local penalization -/

/-- A penalizer is the same function in other units if all variables change by the same factor `a`:
the Lipschitz constant is then divided by `a`. -/
theorem C154_penalizer_scale {d : Nat} {a : ℝ} (ha : 0 < a) (b : Pt d) (L Min : ℝ)
    {predict predict' : Pt d → ℝ × ℝ} (hp : ∀ x, predict' (fun j => a * x j + b j) = predict x) (x x0 : Pt d) :
    hammerValue (hammerPrecompute (L / a) Min predict' fun j => a * x0 j + b j) (fun j => a * x j + b j)
      = hammerValue (hammerPrecompute L Min predict x0) x := by
  have he : euclid (fun j => a * x j + b j) (fun j => a * x0 j + b j) = a * euclid x x0 := by
    unfold euclid
    have : ∑ j, (a * x j + b j - (a * x0 j + b j)) ^ 2 = a ^ 2 * ∑ j, (x j - x0 j) ^ 2 := by
      rw [Finset.mul_sum]
      refine Finset.sum_congr rfl fun j _ => by ring
    rw [this, Real.sqrt_mul (by positivity), Real.sqrt_sq ha.le]
  simp only [hammerValue, hammerPrecompute, hp, he]
  congr 2
  by_cases hL : L = 0
  · simp [hL]
  · have hpow : ∀ z : ℝ, z / (L / a) = a * (z / L) := fun z => by field_simp
    rw [hpow, hpow, ← mul_sub, mul_div_mul_left _ _ ha.ne']

/-- With factors that differ there is no such Lipschitz constant, not even another radius and width: two
locations penalized alike are penalized differently. -/
theorem C154_penalizer_counterexample : ∃ (a : Pt 2) (h : Hammer 2) (x y : Pt 2), (∀ j, 0 < a j) ∧ 0 < h.s ∧
    hammerValue h x = hammerValue h y ∧
    ∀ r s : ℝ, 0 < s → hammerValue ⟨fun j => a j * h.x0 j, r, s⟩ (fun j => a j * x j)
      ≠ hammerValue ⟨fun j => a j * h.x0 j, r, s⟩ (fun j => a j * y j) := by
  have e1 : euclid (![1, 0] : Pt 2) ![0, 0] = 1 := by simp [euclid, Fin.sum_univ_two]
  have e2 : euclid (![0, 1] : Pt 2) ![0, 0] = 1 := by simp [euclid, Fin.sum_univ_two]
  refine ⟨![1, 10], ⟨![0, 0], 0, 1⟩, ![1, 0], ![0, 1], fun j => ?_, one_pos, ?_, fun r s hs => ?_⟩
  · exact Fin.cases (by norm_num) (fun i => by fin_cases i; norm_num) j
  · simp only [hammerValue, e1, e2]
  · have f1 : euclid (fun j => (![1, 10] : Pt 2) j * (![1, 0] : Pt 2) j)
        (fun j => (![1, 10] : Pt 2) j * (![0, 0] : Pt 2) j) = 1 := by
      simp [euclid, Fin.sum_univ_two]
    have f2 : euclid (fun j => (![1, 10] : Pt 2) j * (![0, 1] : Pt 2) j)
        (fun j => (![1, 10] : Pt 2) j * (![0, 0] : Pt 2) j) = 10 := by
      simp [euclid, Fin.sum_univ_two]
    simp only [hammerValue, f1, f2]
    refine (Real.log_lt_log (ncdf_pos _) (ncdf_strictMono ?_)).ne
    gcongr
    norm_num

end GPyOpt.Props
