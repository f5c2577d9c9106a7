import Verif.Props.Regret
import Verif.Props.Ordering
import Verif.Props.NoRepeat

/-!
# C159: locations the model is sure of are not evaluated again

Without de-duplication nothing but the acquisition keeps the optimizer from evaluating a location a second
time.  The incumbent is the smallest mean at the data (`gpmodel.py:125-129`), so no mean at the data is below it.
-/

namespace GPyOpt.Props

open GPyOpt Spec

/-- All samples that the acquisition optimizer may draw in the context contain one that `P` holds of. -/
def SomeSample (P : Vec → Prop) (config : List Desc) (sp : Space) (context : Option Context) (c : Ctx) (op : AcqOptions)
    (o : DesignOracle) : Prop :=
  ∀ Z : Mat, FreeDesign sp c "random" o op.numSamplesObjective (Z.map (freePart c)) → Z.length = op.numSamplesObjective →
    (∀ z ∈ Z, ObjDomain (kindsOf config) z ∧ HasContext sp context z) → ∃ z ∈ Z, P z

/-- The general fact: if the acquisition is at least `b` at all of `X` and less than `b` at an unknown sample, no row of `X`
is suggested. -/
theorem not_suggested {config : List Desc} {cs : Option (List ConstrDict)} {sp : Space} (h : designSpace config cs = .ok sp)
    (hb : sp.hasBandit = false) (hs : ∀ k ∈ kindsOf config, Samplable k) (hvar : kindsOf config ≠ [])
    (hk : AllCont (kindsOf config)) {context : Option Context} (hg : ValidContext sp context) {c : Ctx}
    (hc : contextManager sp context = .ok c) {dup : Option DupMgr} {op : AcqOptions} (hop : GoodOptions op)
    (hlogic : op.anchorLogic = "max_objective") {o : AcqOracle} (ho : GoodAcq o)
    (hopt : ∀ k, Descends (o.opt k) c.noncontextBounds) {f : Vec → Py ℚ} {X : Mat} {b : ℚ}
    (hX : ∀ x ∈ X, ∀ v, f x = .ok v → b ≤ v)
    (hZ : SomeSample (fun z => ¬ InDup dup z ∧ ∀ v, f z = .ok v → v < b) config sp context c op o.design)
    {r : Vec × ℚ} (hr : acqOptimize sp c dup op o f = .ok r) : r.1 ∉ X := by
  intro hin
  obtain ⟨Z, h1, h2, h3, -, h5⟩ :=
    C100_as_good_as_samples_partial h hb hs hvar hk context hg c hc dup op hop hlogic o ho hopt f r hr
  obtain ⟨z, hz, hd, hlt⟩ := hZ Z h1 h2 h3
  obtain ⟨v, hv, hle⟩ := h5 z hz hd
  have hkk := space_kinds_eq h
  obtain ⟨x, -, -, hx3⟩ := acqOptimize_sound h hb (hkk ▸ hs) (hkk ▸ hvar) hg hc hop ho hr
  have := hX _ hin _ hx3
  have := hlt v hv
  linarith

/-- What a model says at its data: no mean below the incumbent, deviations of at most `δ`. -/
def SureOf (fmin δ : ℝ) (mean dev : Vec → ℝ) (X : Mat) : Prop := ∀ x ∈ X, fmin ≤ mean x ∧ dev x ≤ δ

/-- The acquisition functions. -/
inductive AcqName
  | ei (jitter : ℝ) | mpi (jitter : ℝ) | lcb (w : ℝ)

/-- Value of the acquisition that is minimized, at a location with mean `m`, deviation `s` and indicator of the constraints
`ind`. -/
noncomputable def AcqName.value : AcqName → (fmin m s ind : ℝ) → ℝ
  | .ei j, fmin, m, s, ind => eiAcquisition j fmin m s ind 1
  | .mpi j, fmin, m, s, ind => mpiAcquisition j fmin m s ind 1
  | .lcb w, _, m, s, ind => lcbAcquisition w m s ind 1

/-- Arguments that make sense; for `LCB` there are no constraints. -/
def AcqName.Sensible (a : AcqName) (ind : Vec → ℝ) : Prop :=
  match a with
  | .ei _ => ∀ x, ind x = 0 ∨ ind x = 1
  | .mpi j => 0 ≤ j ∧ ∀ x, ind x = 0 ∨ ind x = 1
  | .lcb w => 0 ≤ w ∧ ∀ x, ind x = 1

/-- No location the model is sure of has a better value than one with the incumbent as mean and deviation `δ`. -/
theorem sure_value (a : AcqName) {ind : Vec → ℝ} (ha : a.Sensible ind) {fmin δ : ℝ} {mean dev : Vec → ℝ} {X : Mat}
    (hX : SureOf fmin δ mean dev X) {x : Vec} (hx : x ∈ X) :
    a.value fmin fmin δ 1 ≤ a.value fmin (mean x) (dev x) (ind x) := by
  obtain ⟨hm, hs⟩ := hX x hx
  cases a with
  | ei j =>
    simp only [AcqName.value]
    rcases ha x with h0 | h1
    · have := (C57_expected_improvement j fmin fmin δ).2
      rw [h0]
      simp only [eiAcquisition, weightedAcq]
      norm_num
      exact this.le
    · rw [h1]
      exact (C125_ei j fmin (mean x) fmin (dev x) δ 1 1 hm hs one_pos le_rfl).1
  | mpi j =>
    simp only [AcqName.value]
    rcases ha.2 x with h0 | h1
    · have := (C57_probability_of_improvement j fmin fmin δ).2.1
      rw [h0]
      simp only [mpiAcquisition, weightedAcq]
      norm_num
      exact this.le
    · rw [h1]
      simp only [mpiAcquisition, weightedAcq, mpiValue, getQuantiles, mul_one, div_one, neg_le_neg_iff]
      refine ncdf_strictMono.monotone ?_
      have hp := clipStd_pos (dev x)
      have hp' := clipStd_pos δ
      have hle := clipStd_mono hs
      rw [div_le_div_iff₀ hp hp']
      have hj := ha.1
      nlinarith [mul_le_mul_of_nonneg_left hle hj, mul_nonneg (sub_nonneg.2 hm) hp'.le]
  | lcb w =>
    simp only [AcqName.value]
    rw [ha.2 x]
    exact (C125_lcb w (mean x) fmin (dev x) δ 1 1 ha.1 hm hs).1

/-- How good a location has to be to beat all locations the model is sure of: practically, a probability or an expected
improvement that is not zero. -/
theorem C159_threshold (fmin δ j w : ℝ) (hj : 0 ≤ j) (hδ : 1 / 10 ^ 10 ≤ δ) :
    -(δ * npdf (j / δ)) ≤ (AcqName.ei j).value fmin fmin δ 1 ∧
    (AcqName.mpi j).value fmin fmin δ 1 = -ncdf (-(j / δ)) ∧
    (AcqName.lcb w).value fmin fmin δ 1 = fmin - w * δ := by
  have hd : (0 : ℝ) < δ := lt_of_lt_of_le (by norm_num) hδ
  have hcl : clipStd δ = δ := if_neg (not_lt.2 hδ)
  refine ⟨?_, ?_, ?_⟩
  · simp only [AcqName.value, eiAcquisition, weightedAcq, eiValue, getQuantiles, hcl, mul_one, div_one, neg_le_neg_iff]
    have h0 : (fmin - fmin - j) / δ = -(j / δ) := by rw [sub_self, zero_sub, neg_div]
    rw [h0]
    have h1 : npdf (-(j / δ)) = npdf (j / δ) := by simp [npdf]
    rw [h1]
    refine mul_le_mul_of_nonneg_left ?_ hd.le
    have := mul_nonneg (div_nonneg hj hd.le) (ncdf_pos (-(j / δ))).le
    nlinarith
  · simp only [AcqName.value, mpiAcquisition, weightedAcq, mpiValue, getQuantiles, hcl, mul_one, div_one]
    rw [sub_self, zero_sub, neg_div]
  · simp only [AcqName.value, lcbAcquisition, weightedAcq, lcbValue]
    ring

/-- A sample with a better value than every location the model is sure of; `fl` rounds to a number of the machine. -/
def Promising (a : AcqName) (fl : ℝ → ℚ) (fmin δ : ℝ) (mean dev ind : Vec → ℝ) (z : Vec) : Prop :=
  fl (a.value fmin (mean z) (dev z) (ind z)) < fl (a.value fmin fmin δ 1)

/-- **C159**, a suggestion: continuous variables, with constraints and context, without de-duplication. The acquisition is
computed up to a rounding that keeps the order. -/
theorem C159_suggestion_partial {config : List Desc} {cs : Option (List ConstrDict)} {sp : Space}
    (h : designSpace config cs = .ok sp) (hb : sp.hasBandit = false) (hs : ∀ k ∈ kindsOf config, Samplable k)
    (hvar : kindsOf config ≠ []) (hk : AllCont (kindsOf config)) {context : Option Context} (hg : ValidContext sp context)
    {env : EvalEnv} (henv : GoodEnv env) (hlogic : env.op.anchorLogic = "max_objective")
    (hopt : ∀ c, contextManager sp context = .ok c → ∀ k, Descends (env.oracle.acq.opt k) c.noncontextBounds)
    {a : AcqName} {fl : ℝ → ℚ} (hfl : Monotone fl) {fmin δ : ℝ} {mean dev ind : Vec → ℝ} (ha : a.Sensible ind)
    (hf : ∀ x, env.f x = .ok (fl (a.value fmin (mean x) (dev x) (ind x)))) {X : Mat} (hX : SureOf fmin δ mean dev X)
    (hZ : ∀ c, contextManager sp context = .ok c →
      SomeSample (Promising a fl fmin δ mean dev ind) config sp context c env.op env.oracle.acq.design)
    {pending ignored : Option Mat} {m : Mat} (hm : computeNext .sequential env sp context false X pending ignored = .ok m) :
    ∃ x, m = [x] ∧ x ∉ X := by
  obtain ⟨c, b, hc, hbt, hzip⟩ := computeNext_cases hm
  simp only [computeBatch, sequentialBatch, Bool.false_eq_true, if_false] at hbt
  cases hx : acqOptimize sp c none env.op env.oracle.acq env.f with
  | error e => simp [hx] at hbt
  | ok r =>
    have hnot : r.1 ∉ X := not_suggested h hb hs hvar hk hg hc henv.op hlogic henv.acq (hopt c hc)
      (b := fl (a.value fmin fmin δ 1)) (fun x hx v hv => by
        rw [hf] at hv
        cases hv
        exact hfl (sure_value a ha hX hx))
      (fun Z h1 h2 h3 => by
        obtain ⟨z, hz, hp⟩ := hZ c hc Z h1 h2 h3
        refine ⟨z, hz, by simp [InDup], fun v hv => ?_⟩
        rw [hf] at hv
        cases hv
        exact hp) hx
    have hkk := space_kinds_eq h
    obtain ⟨y, ⟨hy1, hy2, -⟩, -, -⟩ := acqOptimize_sound h hb (hkk ▸ hs) (hkk ▸ hvar) hg hc henv.op henv.acq hx
    have hxe : encodeRow sp.kinds y = y := encodeRow_cont (hkk ▸ hk) hy2.length_eq
    rw [hxe] at hy1
    obtain ⟨x, v⟩ := r
    simp only at hy1 hnot
    subst hy1
    simp only [hx, Except.ok.injEq] at hbt
    subst hbt
    have := zipInputs_encode_all h hb (Z := [x]) (by simp) (by simpa using hy2)
    simp only [List.map_cons, List.map_nil, hxe] at this
    rw [this] at hzip
    simp only [Except.ok.injEq] at hzip
    exact ⟨x, hzip.symm, hnot⟩

/-- **C159**, a run: the location of an iteration is new if the model is sure of the data of this iteration and some sample is
promising. So no location is evaluated twice if this holds in every iteration. -/
theorem C159_run_partial {config : List Desc} {cs : Option (List ConstrDict)} {sp : Space}
    (h : designSpace config cs = .ok sp) (hb : sp.hasBandit = false) (hs : ∀ k ∈ kindsOf config, Samplable k)
    (hvar : kindsOf config ≠ []) (hk : AllCont (kindsOf config)) (envs : BOState → EvalEnv) (henvs : ∀ t, GoodEnv (envs t))
    (hlogic : ∀ t, (envs t).op.anchorLogic = "max_objective") {a : AcqName} {fl : ℝ → ℚ} (hfl : Monotone fl)
    (fmin δ : BOState → ℝ) (mean dev : BOState → Vec → ℝ) {ind : Vec → ℝ} (ha : a.Sensible ind)
    (hf : ∀ t x, (envs t).f x = .ok (fl (a.value (fmin t) (mean t x) (dev t x) (ind x))))
    {F : Vec → ℚ} {env : BOEnv} (hsug : env.suggest = stdSuggest sp .sequential envs false)
    (hobj : env.obj = some fun _ x => .ok (F x)) (ra : RunArgs) (hg : ValidContext sp ra.context)
    (hopt : ∀ t c, contextManager sp ra.context = .ok c → ∀ k, Descends ((envs t).oracle.acq.opt k) c.noncontextBounds)
    (fuel : Nat) (s s' : BOState) (why : Stop) (hY : s.Y = none ∨ s.Y = some (s.X.map F))
    (hrun : runOptimization env ra fuel s = (s', .done why)) :
    ∃ (σ : Nat → BOState) (x : Nat → Vec), Iterates F ra.context s.X.length s' σ x ∧
      (∀ k < s'.numAcq, SureOf (fmin (σ k)) (δ (σ k)) (mean (σ k)) (dev (σ k)) (σ k).X →
        (∀ c, contextManager sp ra.context = .ok c → SomeSample (Promising a fl (fmin (σ k)) (δ (σ k)) (mean (σ k))
          (dev (σ k)) ind) config sp ra.context c (envs (σ k)).op (envs (σ k)).oracle.acq.design) →
        x k ∉ (σ k).X) := by
  have key : ∀ k, ∃ (t : BOState) (x : Vec), k < s'.numAcq →
      (t.numAcq = k ∧ t.context = ra.context ∧ t.X = s'.X.take (s.X.length + k) ∧
        t.Y = some (t.X.map F) ∧ s'.X[s.X.length + k]? = some x) ∧ env.suggest t none none = .ok [x] := by
    intro k
    by_cases hkn : k < s'.numAcq
    swap
    · exact ⟨s, [], fun hh => absurd hh hkn⟩
    obtain ⟨obj, s0, bs, sk, s2, Y, r', ho, hst0, hst, htr, -, hsp, -, -, rfl⟩ := runOptimization_done hrun
    rw [hobj] at ho
    cases ho
    have h0 := values_start hY hst0
    rw [← hst.X] at h0
    obtain ⟨ps, fs, rfl⟩ := hsp.frame
    have hkb : k < bs.length := by
      obtain ⟨Y0, new, hY0, -, -⟩ := hst.Y
      obtain ⟨-, -, -, -, -, d6, -⟩ := htr.data hY0
      rw [hst.numAcq] at d6
      have hk' : k < sk.numAcq := hkn
      omega
    obtain ⟨t, x, t1, t2, t3, t4, t5, t6⟩ := trace_states htr h0 (fun t m e1 e2 e3 => by
      rw [hsug] at e3
      unfold stdSuggest at e3
      obtain ⟨c, b, -, hbt, hzip⟩ := computeNext_cases e3
      simp only [computeBatch, sequentialBatch, Bool.false_eq_true, if_false] at hbt
      cases hx : acqOptimize sp c none (envs t).op (envs t).oracle.acq (envs t).f with
      | error e => simp [hx] at hbt
      | ok r =>
        rw [hx] at hbt
        simp only [Except.ok.injEq] at hbt
        subst hbt
        simp only [Space.zipInputs, hb, Bool.false_eq_true, if_false] at hzip
        obtain ⟨m0, h1, rfl⟩ := Except_map_eq_ok.1 hzip
        have := mapE_length h1
        cases m0 with
        | nil => simp at this
        | cons y ys => simpa [atleast2d] using this) k hkb
    rw [hst.numAcq, Nat.zero_add] at t1
    rw [hst.context] at t2
    rw [hst.X] at t3
    obtain ⟨tl, htl⟩ := t6
    refine ⟨t, x, fun _ => ⟨⟨t1, t2, ?_, t4, ?_⟩, t5⟩⟩
    · show t.X = sk.X.take (s.X.length + k)
      rw [← htl, ← t3, List.append_assoc, List.take_left]
    · show sk.X[s.X.length + k]? = some x
      rw [← htl, ← t3, List.append_assoc, List.getElem?_append_right (le_refl _)]
      simp
  choose σ x hkey using key
  refine ⟨σ, x, fun k hk => (hkey k hk).1, fun k hkn hsure hprom => ?_⟩
  obtain ⟨⟨-, t2, -, -, -⟩, hm⟩ := hkey k hkn
  rw [hsug] at hm
  unfold stdSuggest at hm
  rw [t2] at hm
  obtain ⟨y, hy, hn⟩ := C159_suggestion_partial h hb hs hvar hk hg (henvs _) (hlogic _) (hopt _) hfl ha (hf _) hsure hprom hm
  simp only [List.cons.injEq, and_true] at hy
  exact hy ▸ hn

/-- External inputs of the example. -/
def sureEnv : EvalEnv :=
  { exEnv with
    op := { numSamplesObjective := 4 }
    f := exBetween
    oracle := { acq := exBetweenOracle, batch := exBetweenOracle } }

/-- Negation for discrete variables: the acquisition is 5 at the known location and 0 at a sample, but the optimum of the
acquisition is rounded to the known location. -/
theorem C159_discrete_counterexample :
    ((designSpace exRoundKinds none).bind fun sp => (contextManager sp none).bind fun c =>
      (anchorSamples sp (some c) false "random" 4 exOracle).map fun X => (X, X.map exBetween))
      = .ok ([[0], [1], [0], [1]], [.ok 0, .ok 5, .ok 0, .ok 5]) ∧
    ((designSpace exRoundKinds none).bind fun sp =>
      computeNext .sequential sureEnv sp none false [[1]] none none) = .ok [[1]] := by
  refine ⟨by decide +kernel, by decide +kernel⟩

/-- An acquisition that knows the location 1/2: `LCB` with weight 1, mean 0, deviation 1/10 at 1/2 and 1 elsewhere, rounded
to two values. -/
noncomputable def sureRound (v : ℝ) : ℚ := if v < -1 / 2 then -1 else 0

/-- The deviations of the example. -/
noncomputable def sureDev (x : Vec) : ℝ := if x = [1 / 2] then 1 / 10 else 1

/-- The hypotheses are met by the location 1/2 and the sample 0, and the suggestion is new. -/
example : Monotone sureRound ∧ (AcqName.lcb 1).Sensible (fun _ => 1) ∧ SureOf 0 (1 / 10) (fun _ => 0) sureDev [[1 / 2]] ∧
    Promising (.lcb 1) sureRound 0 (1 / 10) (fun _ => 0) sureDev (fun _ => 1) [0] ∧
    (∀ x, sureRound ((AcqName.lcb 1).value 0 0 (sureDev x) 1) = if x = [1 / 2] then 0 else -1) ∧
    ((designSpace exLine none).bind fun sp => computeNext .sequential
      { sureEnv with f := fun x => .ok (if x = [1 / 2] then 0 else -1) } sp none false [[1 / 2]] none none)
      = .ok [[3 / 5]] := by
  have hv : ∀ x, sureRound ((AcqName.lcb 1).value 0 0 (sureDev x) 1) = if x = [1 / 2] then 0 else -1 := by
    intro x
    simp only [AcqName.value, lcbAcquisition, weightedAcq, lcbValue, sureRound, sureDev]
    split_ifs with h1 h2 h3 <;> first | rfl | (exfalso; norm_num at *)
  refine ⟨?_, ⟨zero_le_one, fun _ => rfl⟩, ?_, ?_, hv, by decide +kernel⟩
  · intro u v huv
    simp only [sureRound]
    split_ifs with h1 h2 <;> first | exact le_rfl | (exfalso; linarith) | norm_num
  · intro x hx
    simp only [List.mem_singleton] at hx
    simp [hx, sureDev]
  · have := hv [0]
    simp only [Promising]
    rw [this]
    simp only [AcqName.value, lcbAcquisition, weightedAcq, lcbValue, sureRound]
    norm_num

end GPyOpt.Props
