import Verif.Props.SureLocations
import Verif.Props.EpmgpExact
import Verif.Props.Seeds
import Verif.Props.Infinite

/-!
# C172: the regret of search by expected improvement

If the intervals `mean ± w * dev` of the model contain the objective, then the expected improvement of a location bounds how much
better than the target it can be, and is itself bounded by the improvement that is made there and the deviation.  The
improvements of a run add up to what it gains in total.
-/

namespace GPyOpt.Props

open GPyOpt Spec

/-! ## Standardized improvement -/

/-- Expected improvement of a standard normal variable on the target `w`, against that on the target `-w`. -/
noncomputable def improvementRatio (w : ℝ) : ℝ := expectedImprovement 0 1 w / expectedImprovement 0 1 (-w)

theorem expectedImprovement_std (w : ℝ) : expectedImprovement 0 1 w = stdEI w := by
  rw [expectedImprovement, normalLaw, gaussian_improvement _ _ _ one_pos]
  simp [stdEI]

theorem improvementRatio_eq (w : ℝ) : improvementRatio w = stdEI w / stdEI (-w) := by
  rw [improvementRatio, expectedImprovement_std, expectedImprovement_std]

theorem stdEI_neg (u : ℝ) : stdEI (-u) = stdEI u - u := by
  have h1 : ncdf (-u) = 1 - ncdf u := ncdf_neg u
  have h2 : npdf (-u) = npdf u := by simp [npdf]
  simp only [stdEI, h1, h2]
  ring

theorem stdEI_ge (u : ℝ) : u ≤ stdEI u := by
  have := stdEI_pos (-u)
  rw [stdEI_neg] at this
  linarith

theorem npdf_zero_le : npdf 0 ≤ 1 / 2 := by
  have h2 : (2 : ℝ) ≤ √(2 * Real.pi) := Real.le_sqrt_of_sq_le (by nlinarith [Real.two_le_pi])
  have h3 : npdf 0 = 1 / √(2 * Real.pi) := by simp only [npdf]; rw [show -(1 / 2) * (0 : ℝ) ^ 2 = 0 by ring, Real.exp_zero]
  rw [h3]
  exact one_div_le_one_div_of_le (by norm_num) h2

theorem stdEI_le (u : ℝ) : stdEI u ≤ max u 0 + 1 / 2 := by
  have h0 : stdEI 0 ≤ 1 / 2 := by
    simp only [stdEI, zero_mul, zero_add]
    exact npdf_zero_le
  rcases le_total u 0 with h | h
  · rw [max_eq_right h]
    have := stdEI_strictMono.monotone h
    linarith
  · rw [max_eq_left h]
    have h1 : stdEI (-u) ≤ stdEI 0 := stdEI_strictMono.monotone (by linarith)
    rw [stdEI_neg] at h1
    linarith

theorem improvementRatio_ge {w : ℝ} (hw : 0 ≤ w) : 1 ≤ improvementRatio w := by
  rw [improvementRatio_eq, one_le_div (stdEI_pos _)]
  exact stdEI_strictMono.monotone (by linarith)

/-- The improvement on the target `T` at a location with the value `f` is at most the ratio times the expected improvement. -/
theorem improvement_le_ei {w T m s f : ℝ} (hw : 0 ≤ w) (hs : 0 < s) (hf : |f - m| ≤ w * s) :
    T - f ≤ improvementRatio w * (s * stdEI ((T - m) / s)) := by
  have hp := stdEI_pos (-w)
  have hE : 0 < s * stdEI ((T - m) / s) := mul_pos hs (stdEI_pos _)
  have hR := improvementRatio_ge hw
  by_cases h0 : T - f ≤ 0
  · exact h0.trans (mul_nonneg (by linarith) hE.le)
  push Not at h0
  have hm : T - f - w * s ≤ T - m := by linarith [(abs_le.1 hf).1]
  -- the improvement is at most the expected one and the width
  have h1 : T - f ≤ s * stdEI ((T - m) / s) + w * s := by
    have := mul_le_mul_of_nonneg_left (stdEI_ge ((T - m) / s)) hs.le
    rw [mul_div_cancel₀ _ hs.ne'] at this
    linarith
  -- the expected one is at least that of a target at the lower end of the interval
  have h2 : s * stdEI (-w) ≤ s * stdEI ((T - m) / s) := by
    refine mul_le_mul_of_nonneg_left (stdEI_strictMono.monotone ?_) hs.le
    rw [le_div_iff₀ hs]
    linarith
  have h3 : w * s ≤ w / stdEI (-w) * (s * stdEI ((T - m) / s)) := by
    rw [div_mul_eq_mul_div, le_div_iff₀ hp]
    nlinarith
  have h4 : improvementRatio w = 1 + w / stdEI (-w) := by
    rw [improvementRatio_eq]
    field_simp
    rw [stdEI_neg]
    ring
  rw [h4, add_mul, one_mul]
  linarith

/-- The expected improvement is at most the improvement that is made and the width. -/
theorem ei_le_improvement {w T m s f : ℝ} (hs : 0 < s) (hf : |f - m| ≤ w * s) :
    s * stdEI ((T - m) / s) ≤ max (T - f) 0 + (w + 1 / 2) * s := by
  have h1 := mul_le_mul_of_nonneg_left (stdEI_le ((T - m) / s)) hs.le
  have h2 : s * max ((T - m) / s) 0 = max (T - m) 0 := by
    rw [mul_max_of_nonneg _ _ hs.le, mul_div_cancel₀ _ hs.ne', mul_zero]
  rw [mul_add, h2] at h1
  have h3 : max (T - m) 0 ≤ max (T - f) 0 + w * s := by
    have := (abs_le.1 hf).2
    have h0 := (abs_nonneg _).trans hf
    refine max_le ?_ (by linarith [le_max_right (T - f) 0])
    linarith [le_max_left (T - f) 0]
  linarith

/-! ## Suggestions -/

/-- What the model says in one iteration: predictions (`gpmodel.py:102-116`), the incumbent (`get_fmin`, `gpmodel.py:125-129`), and
how the objective was standardized (`bo.py:253-258`). -/
structure Belief where
  mean : Vec → ℝ
  dev : Vec → ℝ
  fmin : ℝ
  shift : ℝ
  scale : ℝ

/-- The standardized objective. -/
noncomputable def Belief.std (b : Belief) (y : ℚ) : ℝ := ((y : ℝ) - b.shift) / b.scale

/-- The intervals of the model contain the objective, the incumbent is the smallest mean at the data `X`, and no deviation at
the data is larger than `δ`. -/
structure Trusted (ks : List Kind) (F : Vec → ℚ) (w δ : ℝ) (X : Mat) (b : Belief) : Prop where
  scale : 0 < b.scale
  covers : ∀ x, ObjDomain ks x → |b.std (F x) - b.mean x| ≤ w * b.dev x
  incumbent : ∃ x ∈ X, b.fmin = b.mean x
  least : ∀ x ∈ X, b.fmin ≤ b.mean x
  sure : ∀ x ∈ X, b.dev x ≤ δ

/-- The numbers `f` that are minimized are those of the acquisition `EI` in a space without constraints, up to `η`. -/
def ImprovementF (η jitter : ℝ) (b : Belief) (f : Vec → Py ℚ) : Prop :=
  ∀ x v, f x = .ok v → |(v : ℝ) - eiAcquisition jitter b.fmin (b.mean x) (b.dev x) 1 1| ≤ η

theorem eiAcquisition_std (j fmin m s : ℝ) :
    eiAcquisition j fmin m s 1 1 = -(clipStd s * stdEI ((fmin - j - m) / clipStd s)) := by
  simp only [eiAcquisition, weightedAcq, eiValue_std, mul_one, div_one]
  rw [show fmin - m - j = fmin - j - m by ring]

theorem clip_covers {w d s : ℝ} (hw : 0 ≤ w) (h : d ≤ w * s) : d ≤ w * clipStd s := by
  refine h.trans (mul_le_mul_of_nonneg_left ?_ hw)
  rw [clipStd_eq_max]
  exact le_max_left _ _

/-- One step in standardized units: `x` is suggested, `z` was sampled. -/
theorem improvement_step {ks : List Kind} {F : Vec → ℚ} {w δ η jitter : ℝ} (hw : 0 ≤ w) {X : Mat} {b : Belief}
    (hb : Trusted ks F w δ X b) {x z : Vec} (hx : ObjDomain ks x) (hz : ObjDomain ks z)
    (hle : eiAcquisition jitter b.fmin (b.mean x) (b.dev x) 1 1
      ≤ eiAcquisition jitter b.fmin (b.mean z) (b.dev z) 1 1 + 2 * η) :
    b.fmin - jitter - b.std (F z) ≤ improvementRatio w *
      (max (b.fmin - jitter - b.std (F x)) 0 + (w + 1 / 2) * clipStd (b.dev x) + 2 * η) := by
  rw [eiAcquisition_std, eiAcquisition_std] at hle
  have h1 := improvement_le_ei (T := b.fmin - jitter) hw (clipStd_pos (b.dev z)) (clip_covers hw (hb.covers z hz))
  have h2 := ei_le_improvement (T := b.fmin - jitter) (clipStd_pos (b.dev x)) (clip_covers hw (hb.covers x hx))
  have hR := improvementRatio_ge hw
  refine h1.trans (mul_le_mul_of_nonneg_left ?_ (by linarith))
  linarith

/-- **C172**, one step: the suggestion of the acquisition optimizer in a space of continuous variables. No unknown sample is
below the target `fmin - jitter` by more than the ratio times the sum of the improvement that is made at the suggestion, its
width, and the error of the acquisition. -/
theorem C172_step {config : List Desc} {sp : Space} (h : designSpace config none = .ok sp) (hb : sp.hasBandit = false)
    (hs : ∀ k ∈ kindsOf config, Samplable k) (hvar : kindsOf config ≠ []) (hk : AllCont (kindsOf config))
    (context : Option Context) (hg : ValidContext sp context) (c : Ctx) (hc : contextManager sp context = .ok c)
    (dup : Option DupMgr) (op : AcqOptions) (hop : GoodOptions op) (hlogic : op.anchorLogic = "max_objective")
    (o : AcqOracle) (ho : GoodAcq o) (hopt : ∀ k, Descends (o.opt k) c.noncontextBounds)
    (w δ η jitter : ℝ) (hw : 0 ≤ w) (F : Vec → ℚ) (X : Mat) (b : Belief) (hcal : Trusted (kindsOf config) F w δ X b)
    (f : Vec → Py ℚ) (hf : ImprovementF η jitter b f) (r : Vec × ℚ) (hr : acqOptimize sp c dup op o f = .ok r) :
    ObjDomain (kindsOf config) r.1 ∧ ∃ Z : Mat, Sampled config sp context o.design op.numSamplesObjective Z ∧
      (∃ z ∈ Z, ¬ InDup dup z) ∧ ∀ z ∈ Z, ¬ InDup dup z →
        b.fmin - jitter - b.std (F z) ≤ improvementRatio w *
          (max (b.fmin - jitter - b.std (F r.1)) 0 + (w + 1 / 2) * clipStd (b.dev r.1) + 2 * η) := by
  obtain ⟨ds, sp', Y, Z, h1, h2, h3, h4, h5, h6, h7, h8⟩ :=
    as_good_as_design h hb hs hvar hk context hg c hc dup op hop hlogic o ho hopt _ r hr
  have hkk := space_kinds_eq h
  obtain ⟨x, ⟨hx1, hx2, -⟩, -, hx3⟩ := acqOptimize_sound h hb (hkk ▸ hs) (hkk ▸ hvar) hg hc hop ho hr
  rw [encodeRow_cont (hkk ▸ hk) hx2.length_eq] at hx1
  rw [hkk] at hx2
  subst hx1
  refine ⟨hx2, Z, ⟨c, ds, sp', Y, hc, h1, h2, h3, h4, h5, h6⟩, h7, fun z hz hd => ?_⟩
  obtain ⟨v, hv1, hv2⟩ := h8 z hz hd
  obtain ⟨y, -, hy, -⟩ := forall₂_mem_right h6 hz
  refine improvement_step hw hcal hx2 hy ?_
  have e1 := (abs_le.1 (hf _ _ hx3)).1
  have e2 := (abs_le.1 (hf _ _ hv1)).2
  have e3 : (r.2 : ℝ) ≤ v := by exact_mod_cast hv2
  linarith

theorem improvement_suggestion {config : List Desc} {sp : Space} (h : designSpace config none = .ok sp)
    (hb : sp.hasBandit = false) (hs : ∀ k ∈ kindsOf config, Samplable k) (hvar : kindsOf config ≠ [])
    (hk : AllCont (kindsOf config)) {context : Option Context} (hg : ValidContext sp context) {env : EvalEnv}
    (henv : GoodEnv env) (hlogic : env.op.anchorLogic = "max_objective")
    (hopt : ∀ c, contextManager sp context = .ok c → ∀ k, Descends (env.oracle.acq.opt k) c.noncontextBounds)
    {w δ η jitter : ℝ} (hw : 0 ≤ w) {F : Vec → ℚ} {X : Mat} {b : Belief} (hcal : Trusted (kindsOf config) F w δ X b)
    (hf : ImprovementF η jitter b env.f) {deDup : Bool} {m : Mat}
    (hm : computeNext .sequential env sp context deDup X none none = .ok m) :
    ∃ x Z, m = [x] ∧ ObjDomain (kindsOf config) x ∧
      Sampled config sp context env.oracle.acq.design env.op.numSamplesObjective Z ∧
      ∀ z ∈ Z, z ∈ X ∨ b.fmin - jitter - b.std (F z) ≤ improvementRatio w *
          (max (b.fmin - jitter - b.std (F x)) 0 + (w + 1 / 2) * clipStd (b.dev x) + 2 * η) := by
  obtain ⟨c, bt, hc, hbt, hzip⟩ := computeNext_cases hm
  simp only [computeBatch, sequentialBatch] at hbt
  generalize hdup : (if deDup = true then some (dupMgr X none none) else none) = dup at hbt
  cases hx : acqOptimize sp c dup env.op env.oracle.acq env.f with
  | error e => simp [hx] at hbt
  | ok r =>
    obtain ⟨x, v⟩ := r
    simp only [hx, Except.ok.injEq] at hbt
    subst hbt
    obtain ⟨h1, Z, h2, -, h4⟩ := C172_step h hb hs hvar hk context hg c hc dup env.op henv.op hlogic env.oracle.acq henv.acq
      (hopt c hc) w δ η jitter hw F X b hcal env.f hf (x, v) hx
    have hkk := space_kinds_eq h
    have hxe : encodeRow sp.kinds x = x := encodeRow_cont (hkk ▸ hk) (by rw [hkk]; exact h1.length_eq)
    have := zipInputs_encode_all h hb (Z := [x]) (by simp) (by simpa [hkk] using h1)
    simp only [List.map_cons, List.map_nil, hxe] at this
    rw [this] at hzip
    simp only [Except.ok.injEq] at hzip
    refine ⟨x, Z, hzip.symm, h1, h2, fun z hz => ?_⟩
    by_cases hd : InDup dup z
    · left
      obtain ⟨dm, hd1, hd2⟩ := hd
      rw [← hdup] at hd1
      split_ifs at hd1
      cases hd1
      simpa [dupMgr] using hd2
    · exact .inr (h4 z hz hd)

/-! ## Runs -/

/-- In every state of a run the suggestion and the samples have the property `P`. -/
theorem run_suggestions {ks : List Kind} {F : Vec → ℚ} {env : BOEnv} {P : BOState → Vec → Mat → Prop}
    (hobj : env.obj = some fun _ x => .ok (F x)) (a : RunArgs)
    (hone : ∀ t m, env.suggest t none none = .ok m → m.length = 1)
    (hsugg : ∀ (t : BOState) (x : Vec), t.context = a.context → t.Y = some (t.X.map F) → t.X ≠ [] →
      env.suggest t none none = .ok [x] → ObjDomain ks x ∧ ∃ Z, P t x Z)
    {fuel : Nat} {s s' : BOState} {why : Stop} (hne : s.X ≠ [])
    (hX : ∀ x ∈ s.X, ObjDomain ks x) (hY : s.Y = none ∨ s.Y = some (s.X.map F))
    (hrun : runOptimization env a fuel s = (s', .done why)) :
    ∃ (r : Results) (σ : Nat → BOState) (x : Nat → Vec) (Z : Nat → Mat), s'.results = some r ∧
      (∀ x ∈ s'.X, r.fxOpt ≤ F x) ∧ s.X <+: s'.X ∧ Iterates F a.context s.X.length s' σ x ∧
      ∀ k < s'.numAcq, (∀ y ∈ (σ k).X, ObjDomain ks y) ∧ (σ k).X ≠ [] ∧ ObjDomain ks (x k) ∧ P (σ k) (x k) (Z k) := by
  obtain ⟨r, Y, i, r1, r2, r3, -⟩ := C39_reported_optimum _ a fuel s s' _ hrun
  have hv := run_values hobj hY hrun
  rw [r2] at hv
  cases hv
  have hmin : ∀ x ∈ s'.X, r.fxOpt ≤ F x := fun x hx => r3.2 _ (List.mem_map_of_mem hx)
  obtain ⟨obj, s0, bs, sk, s2, Y, r', ho, hst0, hst, htr, -, hsp, -, -, rfl⟩ := runOptimization_done hrun
  rw [hobj] at ho
  cases ho
  have h0 := values_start hY hst0
  rw [← hst.X] at h0
  obtain ⟨ps, fs, rfl⟩ := hsp.frame
  have hts := trace_states htr h0 (fun t m _ _ e3 => hone t m e3)
  have hbs : bs.length = sk.numAcq := by
    obtain ⟨Y0, new, hY0, -, -⟩ := hst.Y
    obtain ⟨-, -, -, -, -, d6, -⟩ := htr.data hY0
    rw [hst.numAcq] at d6
    omega
  have hpre : s.X <+: sk.X := hst.X ▸ trace_prefix htr
  have key : ∀ k, ∃ (t : BOState) (x : Vec) (Z : Mat), k < sk.numAcq →
      (t.numAcq = k ∧ t.context = a.context ∧ t.X = sk.X.take (s.X.length + k) ∧
        t.Y = some (t.X.map F) ∧ sk.X[s.X.length + k]? = some x) ∧ t.X ≠ [] ∧ ObjDomain ks x ∧ P t x Z := by
    intro k
    by_cases hkn : k < sk.numAcq
    swap
    · exact ⟨s, [], [], fun hh => absurd hh hkn⟩
    obtain ⟨t, x, t1, t2, t3, t4, t5, t6⟩ := hts k (hbs ▸ hkn)
    rw [hst.numAcq, Nat.zero_add] at t1
    rw [hst.context] at t2
    rw [hst.X] at t3
    have hne' : t.X ≠ [] := by
      intro hn
      rw [hn] at t3
      have := List.length_pos_iff.2 hne
      simp at t3
      omega
    obtain ⟨p1, Z, p2⟩ := hsugg t x t2 t4 hne' t5
    obtain ⟨tl, htl⟩ := t6
    refine ⟨t, x, Z, fun _ => ⟨⟨t1, t2, ?_, t4, ?_⟩, hne', p1, p2⟩⟩
    · rw [← htl, ← t3, List.append_assoc, List.take_left]
    · rw [← htl, ← t3, List.append_assoc, List.getElem?_append_right (le_refl _)]
      simp
  choose σ x Z hkey using key
  refine ⟨r, σ, x, Z, r1, hmin, hpre, fun k hk => (hkey k hk).1, fun k hk => ?_⟩
  obtain ⟨⟨-, -, k3, -, -⟩, k6, k7, k8⟩ := hkey k hk
  refine ⟨fun y hy => ?_, k6, k7, k8⟩
  have hk : k < sk.numAcq := hk
  rw [k3] at hy
  obtain ⟨i, hiy⟩ := List.mem_iff_getElem?.1 hy
  rw [List.getElem?_take] at hiy
  split_ifs at hiy with hi
  by_cases hin : i < s.X.length
  · obtain ⟨tl, htl⟩ := hpre
    rw [← htl, List.getElem?_append_left hin] at hiy
    exact hX y (List.mem_of_getElem? hiy)
  · have hk' := hkey (i - s.X.length) (by omega)
    have := hk'.1.2.2.2.2
    rw [show s.X.length + (i - s.X.length) = i by omega, hiy] at this
    cases this
    exact hk'.2.2.1

/-- The best value after `k` suggestions, `y` being the first. -/
def bestAfter (F : Vec → ℚ) (y : ℚ) (x : Nat → Vec) : Nat → ℚ
  | 0 => y
  | k + 1 => min (bestAfter F y x k) (F (x k))

/-- One step in the units of the objective, against a sample `z` that is not known. -/
theorem improvement_new {ks : List Kind} {F : Vec → ℚ} {w δ η jitter R : ℝ} (hR : 1 ≤ R) (hw : 0 ≤ w) (hj : 0 ≤ jitter)
    {X : Mat} {b : Belief} (hb : Trusted ks F w δ X b) (hX : ∀ x ∈ X, ObjDomain ks x) {x z : Vec}
    (hz : b.fmin - jitter - b.std (F z) ≤ R *
      (max (b.fmin - jitter - b.std (F x)) 0 + (w + 1 / 2) * clipStd (b.dev x) + 2 * η))
    {v y y' : ℚ} (hv : ∀ x ∈ X, v ≤ F x) (hy : ∃ p ∈ X, y = F p) (hy1 : y' ≤ y) (hy2 : y' ≤ F x) :
    (v : ℝ) - F z ≤ b.scale * (jitter + (1 + R) * (w * δ)) + R *
      ((y - y') + b.scale * ((w + 1 / 2) * clipStd (b.dev x) + 2 * η)) := by
  have hsc := hb.scale
  obtain ⟨p, hp, hpe⟩ := hb.incumbent
  have hδ : 0 ≤ w * δ := by
    have h1 := (abs_nonneg _).trans (hb.covers p (hX p hp))
    exact h1.trans (mul_le_mul_of_nonneg_left (hb.sure p hp) hw)
  have hstd : ∀ u : ℚ, b.scale * b.std u = u - b.shift := by
    intro u
    rw [Belief.std, mul_div_cancel₀ _ hsc.ne']
  have hyy : (y' : ℝ) ≤ y := by exact_mod_cast hy1
  -- the incumbent of the model against the data
  have hlow : (v : ℝ) ≤ b.scale * b.fmin + b.shift + b.scale * (w * δ) := by
    have h1 := (abs_le.1 (hb.covers p (hX p hp))).2
    have h2 := mul_le_mul_of_nonneg_left (hb.sure p hp) hw
    have h3 : b.std (F p) ≤ b.fmin + w * δ := by rw [hpe]; linarith
    have h4 := mul_le_mul_of_nonneg_left h3 hsc.le
    rw [hstd, mul_add] at h4
    have : (v : ℝ) ≤ F p := by exact_mod_cast hv p hp
    linarith
  have hup : b.scale * b.fmin + b.shift ≤ y + b.scale * (w * δ) := by
    obtain ⟨q, hq, rfl⟩ := hy
    have h1 := (abs_le.1 (hb.covers q (hX q hq))).1
    have h2 := mul_le_mul_of_nonneg_left (hb.sure q hq) hw
    have h3 : b.fmin ≤ b.std (F q) + w * δ := by linarith [hb.least q hq]
    have h4 := mul_le_mul_of_nonneg_left h3 hsc.le
    rw [mul_add, hstd] at h4
    linarith
  have hmax : b.scale * max (b.fmin - jitter - b.std (F x)) 0 ≤ y - y' + b.scale * (w * δ) := by
    rw [mul_max_of_nonneg _ _ hsc.le, mul_zero]
    refine max_le ?_ (by linarith [mul_nonneg hsc.le hδ])
    rw [mul_sub, mul_sub, hstd]
    have : (y' : ℝ) ≤ F x := by exact_mod_cast hy2
    linarith [mul_nonneg hsc.le hj]
  have hz' := mul_le_mul_of_nonneg_left hz hsc.le
  rw [mul_sub, mul_sub, hstd] at hz'
  have hfin : b.scale * (R *
      (max (b.fmin - jitter - b.std (F x)) 0 + (w + 1 / 2) * clipStd (b.dev x) + 2 * η)) ≤
      R * ((y - y' + b.scale * (w * δ)) + b.scale * ((w + 1 / 2) * clipStd (b.dev x) + 2 * η)) := by
    rw [mul_left_comm]
    refine mul_le_mul_of_nonneg_left ?_ (by linarith)
    linarith
  linarith

/-- One step in the units of the objective. -/
theorem improvement_units {ks : List Kind} {F : Vec → ℚ} {w δ η jitter R : ℝ} (hR : 1 ≤ R) (hw : 0 ≤ w) (hj : 0 ≤ jitter) (hη : 0 ≤ η)
    {X : Mat} {b : Belief} (hb : Trusted ks F w δ X b) (hX : ∀ x ∈ X, ObjDomain ks x) {x z : Vec}
    (hz : z ∈ X ∨ b.fmin - jitter - b.std (F z) ≤ R *
      (max (b.fmin - jitter - b.std (F x)) 0 + (w + 1 / 2) * clipStd (b.dev x) + 2 * η))
    {v y y' : ℚ} (hv : ∀ x ∈ X, v ≤ F x) (hvz : z ∈ X → v ≤ F z) (hy : ∃ p ∈ X, y = F p) (hy1 : y' ≤ y) (hy2 : y' ≤ F x) :
    (v : ℝ) - F z ≤ b.scale * (jitter + (1 + R) * (w * δ)) + R *
      ((y - y') + b.scale * ((w + 1 / 2) * clipStd (b.dev x) + 2 * η)) := by
  have hsc := hb.scale
  have hcl := clipStd_pos (b.dev x)
  obtain ⟨p, hp, -⟩ := hb.incumbent
  have hδ : 0 ≤ w * δ := by
    have h1 := (abs_nonneg _).trans (hb.covers p (hX p hp))
    exact h1.trans (mul_le_mul_of_nonneg_left (hb.sure p hp) hw)
  have hyy : (y' : ℝ) ≤ y := by exact_mod_cast hy1
  have hc1 : 0 ≤ (w + 1 / 2) * clipStd (b.dev x) := mul_nonneg (by linarith) hcl.le
  rcases hz with hz | hz
  · have : (v : ℝ) ≤ F z := by exact_mod_cast hvz hz
    have h1 : 0 ≤ b.scale * (jitter + (1 + R) * (w * δ)) :=
      mul_nonneg hsc.le (add_nonneg hj (mul_nonneg (by linarith) hδ))
    have h2 : 0 ≤ R * ((y - y') + b.scale * ((w + 1 / 2) * clipStd (b.dev x) + 2 * η)) :=
      mul_nonneg (by linarith) (add_nonneg (by linarith) (mul_nonneg hsc.le (by linarith)))
    linarith
  exact improvement_new hR hw hj hb hX hz hv hy hy1 hy2

/-- The best value so far is a value at the data. -/
theorem iterates_best {F : Vec → ℚ} {context : Option Context} {s s' : BOState} {σ : Nat → BOState} {x : Nat → Vec} {x0 : Vec}
    (hx0 : x0 ∈ s.X) (r3 : s.X <+: s'.X) (r4 : Iterates F context s.X.length s' σ x) :
    ∀ k < s'.numAcq, ∃ p ∈ (σ k).X, bestAfter F (F x0) x k = F p := by
  let B := bestAfter F (F x0) x
  intro k hk
  rw [(r4 k hk).2.2.1]
  have : ∀ j ≤ k, ∃ p ∈ s'.X.take (s.X.length + j), B j = F p := by
    intro j
    induction j with
    | zero =>
      intro _
      obtain ⟨tl, htl⟩ := r3
      exact ⟨x0, by rw [← htl, Nat.add_zero, List.take_left]; exact hx0, rfl⟩
    | succ j ih =>
      intro hj
      obtain ⟨p, hp, hpe⟩ := ih (by omega)
      have hsub : ∀ u ∈ s'.X.take (s.X.length + j), u ∈ s'.X.take (s.X.length + (j + 1)) := fun u hu =>
        (List.take_prefix_take_left (by omega)).subset hu
      have hxj : x j ∈ s'.X.take (s.X.length + (j + 1)) := by
        have := (r4 j (by omega)).2.2.2.2
        refine List.mem_of_getElem? (i := s.X.length + j) ?_
        rw [List.getElem?_take_of_lt (by omega), this]
      rcases min_choice (B j) (F (x j)) with he | he
      · exact ⟨p, hsub p hp, he.trans hpe⟩
      · exact ⟨x j, hxj, he⟩
  exact this k (le_refl _)

/-- The sum of the steps of a run. -/
theorem steps_total {F : Vec → ℚ} {R : ℝ} (hR : 0 ≤ R) {K : Nat} {v : ℚ} {x : Nat → Vec} {y0 : ℚ} (h0 : v ≤ y0)
    (hx : ∀ k < K, v ≤ F (x k)) {q : ℚ} {A C : Nat → ℝ}
    (hstep : ∀ k < K, (v : ℝ) - q ≤ A k + R * (((bestAfter F y0 x k : ℚ) - (bestAfter F y0 x (k + 1) : ℚ)) + C k)) :
    K * ((v : ℝ) - q) ≤ ∑ k ∈ Finset.range K, A k + R * ((y0 - v) + ∑ k ∈ Finset.range K, C k) := by
  have hsum := Finset.sum_le_sum fun k hk => hstep k (Finset.mem_range.1 hk)
  rw [Finset.sum_const, Finset.card_range, nsmul_eq_mul, Finset.sum_add_distrib, ← Finset.mul_sum, Finset.sum_add_distrib,
    Finset.sum_range_sub' (fun k => (bestAfter F y0 x k : ℝ))] at hsum
  have hlast : (v : ℝ) ≤ bestAfter F y0 x K := by
    have : ∀ k ≤ K, v ≤ bestAfter F y0 x k := by
      intro k
      induction k with
      | zero => intro _; exact h0
      | succ k ih =>
        intro hk
        exact le_min (ih (by omega)) (hx k (by omega))
    exact_mod_cast this _ (le_refl _)
  refine hsum.trans (add_le_add_right (mul_le_mul_of_nonneg_left ?_ hR) _)
  have : (bestAfter F y0 x 0 : ℝ) = y0 := rfl
  rw [this]
  linarith

/-- The sum over the iterations. -/
theorem improvement_total {ks : List Kind} {F : Vec → ℚ} {w η jitter R : ℝ} (hR : 1 ≤ R) (hw : 0 ≤ w) (hj : 0 ≤ jitter) (hη : 0 ≤ η)
    {δ : BOState → ℝ} {b : BOState → Belief} {K : Nat} {v : ℚ} {σ : Nat → BOState} {x : Nat → Vec} {y0 : ℚ} (h0 : v ≤ y0)
    (r2 : ∀ k < K, v ≤ F (x k) ∧ ∀ u ∈ (σ k).X, v ≤ F u) (hdata : ∀ k < K, ∃ p ∈ (σ k).X, bestAfter F y0 x k = F p)
    (r5 : ∀ k < K, (∀ y ∈ (σ k).X, ObjDomain ks y) ∧ Trusted ks F w (δ (σ k)) (σ k).X (b (σ k))) {q : ℚ}
    (hq : ∀ k < K, ∃ z, F z ≤ q ∧ (z ∈ (σ k).X ∨
      (b (σ k)).fmin - jitter - (b (σ k)).std (F z) ≤ R * (max ((b (σ k)).fmin - jitter - (b (σ k)).std (F (x k))) 0
        + (w + 1 / 2) * clipStd ((b (σ k)).dev (x k)) + 2 * η))) :
    K * ((v : ℝ) - q) ≤
      ∑ k ∈ Finset.range K, (b (σ k)).scale * (jitter + (1 + R) * (w * δ (σ k))) +
      R * ((y0 - v) + ∑ k ∈ Finset.range K,
        (b (σ k)).scale * ((w + 1 / 2) * clipStd ((b (σ k)).dev (x k)) + 2 * η)) := by
  refine steps_total (by linarith) h0 (fun k hk => (r2 k hk).1) fun k hk => ?_
  obtain ⟨d1, d5⟩ := r5 k hk
  obtain ⟨z, hzq, hz⟩ := hq k hk
  have := improvement_units hR hw hj hη d5 d1 hz (r2 k hk).2 ((r2 k hk).2 z)
    (hdata k hk) (y' := bestAfter F y0 x (k + 1)) (min_le_left _ _) (min_le_right _ _)
  have hq' : (F z : ℝ) ≤ q := by exact_mod_cast hzq
  linarith

theorem improvement_sum {ks : List Kind} {F : Vec → ℚ} {w η jitter : ℝ} (hw : 0 ≤ w) (hj : 0 ≤ jitter) (hη : 0 ≤ η)
    {δ : BOState → ℝ} {b : BOState → Belief} {context : Option Context} {s s' : BOState} {r : Results} {σ : Nat → BOState}
    {x : Nat → Vec} {x0 : Vec} (hx0 : x0 ∈ s.X) (r2 : ∀ x ∈ s'.X, r.fxOpt ≤ F x) (r3 : s.X <+: s'.X)
    (r4 : Iterates F context s.X.length s' σ x)
    (r5 : ∀ k < s'.numAcq, (∀ y ∈ (σ k).X, ObjDomain ks y) ∧ Trusted ks F w (δ (σ k)) (σ k).X (b (σ k))) {q : ℚ}
    (hq : ∀ k < s'.numAcq, ∃ z, F z ≤ q ∧ (z ∈ (σ k).X ∨
      (b (σ k)).fmin - jitter - (b (σ k)).std (F z) ≤ improvementRatio w * (max ((b (σ k)).fmin - jitter - (b (σ k)).std (F (x k))) 0
        + (w + 1 / 2) * clipStd ((b (σ k)).dev (x k)) + 2 * η))) :
    s'.numAcq * ((r.fxOpt : ℝ) - q) ≤
      ∑ k ∈ Finset.range s'.numAcq, (b (σ k)).scale * (jitter + (1 + improvementRatio w) * (w * δ (σ k))) +
      improvementRatio w * ((F x0 - r.fxOpt) + ∑ k ∈ Finset.range s'.numAcq,
        (b (σ k)).scale * ((w + 1 / 2) * clipStd ((b (σ k)).dev (x k)) + 2 * η)) :=
  improvement_total (improvementRatio_ge hw) hw hj hη (r2 x0 (r3.subset hx0))
    (fun k hk => ⟨r2 _ (List.mem_of_getElem? (r4 k hk).2.2.2.2), fun u hu => r2 u (List.mem_of_mem_take ((r4 k hk).2.2.1 ▸ hu))⟩)
    (iterates_best hx0 r3 r4) r5 hq

/-- **C172**, a run: acquisition `EI`, suggestions one at a time, continuous variables without constraints, any context, with or
without de-duplication, and a model whose intervals contain the objective whenever its data are values of the objective. If
every iteration samples a value of at most `q`, then the sum of the excesses of the reported optimum over `q` is at most the
total gain, the widths at the suggestions and the errors of the acquisition, all times the ratio, and the jitter and the
widths at the data. The improvements that are made are paid only once: `F x0` is the value at any of the initial locations. -/
theorem C172_run {config : List Desc} {sp : Space} (h : designSpace config none = .ok sp) (hb : sp.hasBandit = false)
    (hs : ∀ k ∈ kindsOf config, Samplable k) (hvar : kindsOf config ≠ []) (hk : AllCont (kindsOf config))
    (w η jitter : ℝ) (hw : 0 ≤ w) (hj : 0 ≤ jitter) (hη : 0 ≤ η) (δ : BOState → ℝ) (b : BOState → Belief) (F : Vec → ℚ)
    (hcal : ∀ t, t.Y = some (t.X.map F) → t.X ≠ [] → Trusted (kindsOf config) F w (δ t) t.X (b t))
    (envs : BOState → EvalEnv) (henvs : ∀ t, GoodEnv (envs t)) (hf : ∀ t, ImprovementF η jitter (b t) (envs t).f)
    (hlogic : ∀ t, (envs t).op.anchorLogic = "max_objective") (deDup : Bool) (env : BOEnv)
    (hsug : env.suggest = stdSuggest sp .sequential envs deDup) (hobj : env.obj = some fun _ x => .ok (F x))
    (a : RunArgs) (hg : ValidContext sp a.context)
    (hopt : ∀ t c, contextManager sp a.context = .ok c → ∀ k, Descends ((envs t).oracle.acq.opt k) c.noncontextBounds)
    (fuel : Nat) (s s' : BOState) (why : Stop) (hX : ∀ x ∈ s.X, ObjDomain (kindsOf config) x)
    (hY : s.Y = none ∨ s.Y = some (s.X.map F)) (hrun : runOptimization env a fuel s = (s', .done why))
    (x0 : Vec) (hx0 : x0 ∈ s.X) :
    ∃ (r : Results) (σ : Nat → BOState) (x : Nat → Vec) (Z : Nat → Mat), s'.results = some r ∧
      Iterates F a.context s.X.length s' σ x ∧
      (∀ k < s'.numAcq, Sampled config sp a.context (envs (σ k)).oracle.acq.design (envs (σ k)).op.numSamplesObjective (Z k)) ∧
      ∀ q : ℚ, (∀ k < s'.numAcq, ∃ z ∈ Z k, F z ≤ q) →
        s'.numAcq * ((r.fxOpt : ℝ) - q) ≤
          ∑ k ∈ Finset.range s'.numAcq, (b (σ k)).scale * (jitter + (1 + improvementRatio w) * (w * δ (σ k))) +
          improvementRatio w * ((F x0 - r.fxOpt) + ∑ k ∈ Finset.range s'.numAcq,
            (b (σ k)).scale * ((w + 1 / 2) * clipStd ((b (σ k)).dev (x k)) + 2 * η)) := by
  have hne : s.X ≠ [] := List.ne_nil_of_mem hx0
  obtain ⟨r, σ, x, Z, r1, r2, r3, r4, r5⟩ := run_suggestions (ks := kindsOf config) (F := F) (env := env)
    (P := fun t x Z => Sampled config sp a.context (envs t).oracle.acq.design (envs t).op.numSamplesObjective Z ∧
      Trusted (kindsOf config) F w (δ t) t.X (b t) ∧
      ∀ z ∈ Z, z ∈ t.X ∨ (b t).fmin - jitter - (b t).std (F z) ≤ improvementRatio w *
          (max ((b t).fmin - jitter - (b t).std (F x)) 0 + (w + 1 / 2) * clipStd ((b t).dev x) + 2 * η)) hobj a
    (fun t m hm => by
      rw [hsug] at hm
      exact computeNext_one hm)
    (fun t x t1 t2 t3 t4 => by
      rw [hsug] at t4
      unfold stdSuggest at t4
      rw [t1] at t4
      obtain ⟨x', Z, e1, e2, e3, e4⟩ :=
        improvement_suggestion h hb hs hvar hk hg (henvs t) (hlogic t) (hopt t) hw (hcal t t2 t3) (hf t) t4
      simp only [List.cons.injEq, and_true] at e1
      subst e1
      exact ⟨e2, Z, e3, hcal t t2 t3, e4⟩) hne hX hY hrun
  refine ⟨r, σ, x, Z, r1, r4, fun k hk => (r5 k hk).2.2.2.1, fun q hq => ?_⟩
  refine improvement_sum hw hj hη hx0 r2 r3 r4 (fun k hk => ⟨(r5 k hk).1, (r5 k hk).2.2.2.2.1⟩) fun k hk => ?_
  obtain ⟨z, hz, hzq⟩ := hq k hk
  exact ⟨z, hzq, (r5 k hk).2.2.2.2.2 z hz⟩

/-- **C172**, how likely the bound holds for a quantile of the objective: nothing raises, the run makes `K` suggestions one at
a time without context, de-duplication and stop for close locations, and the samples of the acquisition optimizer are drawn
uniformly and independently, `N` per iteration. Let `γ` be the probability that a location drawn uniformly from the domain
has a value of at most `q`. Then with probability at least `(1 - (1 - γ) ^ N) ^ K` the run completes and the excess of the
reported optimum over `q` is bounded as in `C172_run`. -/
theorem C172_probability {config : List Desc} {sp : Space} (h : designSpace config none = .ok sp) (hb : sp.hasBandit = false)
    (hs : ∀ k ∈ kindsOf config, Samplable k) (hvar : kindsOf config ≠ []) (hk : AllCont (kindsOf config))
    {M K N : Nat} (hN : 0 < N) (junk : Nat → Nat → ℚ) (rest : Nat → DesignOracle) (hrest : ∀ k, UnitOracle (rest k))
    (w η jitter : ℝ) (hw : 0 ≤ w) (hj : 0 ≤ jitter) (hη : 0 ≤ η) (δ : BOState → ℝ) (b : BOState → Belief) (F : Vec → ℚ)
    (hcal : ∀ t, t.Y = some (t.X.map F) → t.X ≠ [] → Trusted (kindsOf config) F w (δ t) t.X (b t))
    (envs : Draws M K 1 N sp.kinds → BOState → EvalEnv) (hf : ∀ ω t, ImprovementF η jitter (b t) (envs ω t).f)
    (hlogic : ∀ ω t, (envs ω t).op.anchorLogic = "max_objective")
    (hopt : ∀ ω t k, Descends ((envs ω t).oracle.acq.opt k) (sp.kinds.map contBox))
    (env : Draws M K 1 N sp.kinds → BOEnv)
    (hr : ∀ ω, CalmBO sp .sequential false { env ω with suggest := stdSuggest sp .sequential (envs ω) false } (envs ω))
    (hobj : ∀ ω, (env ω).obj = some fun _ x => .ok (F x))
    (a : RunArgs) (ha : a.context = none) (hK : a.maxIter = some (.fin K)) (ht : a.maxTime = none) (heps : a.eps < 0)
    (fuel : Nat) (hfuel : K < fuel) (s : BOState) (hX : ∀ x ∈ s.X, ObjDomain sp.kinds x)
    (hY : s.Y = none ∨ s.Y = some (s.X.map F)) (hc : SoundCost s.cost) (x0 : Vec) (hx0 : x0 ∈ s.X) (q : ℚ) :
    open Classical in
    (1 - (1 - targetRatio M sp.kinds none fun x => F x ≤ q) ^ N) ^ K ≤
      ((Finset.univ.filter fun ω : Draws M K 1 N sp.kinds =>
        ∃ s' r σ x, runOptimization (confBO (env ω) sp N (drawsOf junk rest ω) (envs ω)) a fuel s = (s', .done .limit) ∧
          s'.numAcq = K ∧ s'.results = some r ∧ Iterates F none s.X.length s' σ x ∧
          K * ((r.fxOpt : ℝ) - q) ≤
            ∑ k ∈ Finset.range K, (b (σ k)).scale * (jitter + (1 + improvementRatio w) * (w * δ (σ k))) +
            improvementRatio w * ((F x0 - r.fxOpt) + ∑ k ∈ Finset.range K,
              (b (σ k)).scale * ((w + 1 / 2) * clipStd ((b (σ k)).dev (x k)) + 2 * η))).card : ℝ) /
        Fintype.card (Draws M K 1 N sp.kinds) := by
  classical
  have hkk := space_kinds_eq h
  have hne : s.X ≠ [] := List.ne_nil_of_mem hx0
  obtain ⟨G, hG⟩ : ∃ G : Vec → Prop, ∀ x, G x ↔ F x ≤ q := ⟨_, fun _ => Iff.rfl⟩
  rw [show (fun x => F x ≤ q) = G from funext fun x => propext (hG x).symm, ← share_hit M K N sp.kinds G]
  refine div_le_div_of_nonneg_right (Nat.cast_le.2 (Finset.card_le_card fun ω hω => ?_)) (Nat.cast_nonneg _)
  rw [Finset.mem_filter_univ] at hω ⊢
  have ho := unitOracle_drawsOf junk hrest ω
  have hcalm := calm_conf hN (hr ω) ho
  have hYl : ∀ Y, s.Y = some Y → Y.length = s.X.length := by
    rintro Y hY'
    rcases hY with hY | hY <;> rw [hY] at hY'
    · cases hY'
    · cases hY'
      simp
  have hg : ValidContext sp a.context := by simp [ValidContext, ha]
  rcases C140_run_completes h hb hs hvar (by simp [GoodEvaluator]) hcalm (.inl rfl) a hg K hK ht fuel hfuel s hne hX hYl hc with
    ⟨h1, h2⟩ | ⟨-, h2⟩
  swap
  · simp at h2
  rcases hx : runOptimization (confBO (env ω) sp N (drawsOf junk rest ω) (envs ω)) a fuel s with ⟨s', wh⟩
  rw [hx] at h1 h2
  simp only at h1 h2
  subst h1
  have hKn : s'.numAcq = K := by
    rcases h2 with h2 | ⟨pre, u, v, -, h2⟩
    · exact h2
    · have := Real.sqrt_nonneg ((List.zipWith (fun u v : ℚ => ((u : ℝ) - v) ^ 2) v u).sum)
      have : (a.eps : ℝ) < 0 := by exact_mod_cast heps
      linarith
  obtain ⟨r, σ, x, Z, c1, c2, c3, c4⟩ := C172_run h hb hs hvar hk w η jitter hw hj hη δ b F hcal
    (confEnvs N (drawsOf junk rest ω) (envs ω)) (goodEnv_conf hN ho fun s => ((hr ω).calm s).good) (fun t => hf ω t)
    (fun t => hlogic ω t) false (confBO (env ω) sp N (drawsOf junk rest ω) (envs ω)) rfl (hobj ω) a hg
    (fun t c hcm k => by
      rw [bounds_cont h hb (hkk ▸ hk) hcm, keep_true]
      · exact hopt ω t k
      · intro i
        rw [ha] at hcm
        simp [freePos, contextManager_none hcm]) fuel s s' .limit (hkk ▸ hX) hY hx x0 hx0
  rw [ha] at c2 c3
  rw [hKn] at c3 c4
  refine ⟨s', r, σ, x, rfl, hKn, c1, c2, c4 q fun k hk => ?_⟩
  have d1 := c3 k hk
  have hn : (σ k).numAcq = k := (c2 k (hKn ▸ hk)).1
  have hd : (confEnvs N (drawsOf junk rest ω) (envs ω) (σ k)).oracle.acq.design = oracleOf junk (ω ⟨k, hk⟩) := by
    simp [confEnvs, drawsOf, hn, hk]
  rw [hd] at d1
  have hZ := sampled_draws h junk (ω ⟨k, hk⟩) d1
  obtain ⟨ρ, hρ⟩ := hω ⟨k, hk⟩
  exact ⟨_, by rw [hZ, List.mem_ofFn]; exact ⟨ρ, rfl⟩, (hG _).1 hρ⟩

/-! ## The jitter -/

/-- **C172** (the jitter): a location with the mean of the incumbent and a deviation of practically zero has a better acquisition
than one that the model knows to be better by `g`, for every `g` below the jitter. With the default jitter `0.01` and
`g = 0.009` the deviation is `1e-9`. The jitter in the bound is therefore needed: the search may never make an
improvement that is smaller. -/
theorem C172_jitter_counterexample (jitter g fmin c : ℝ) (hg : 0 < g) (hj : g < jitter) (hc : 0 < c) :
    eiAcquisition jitter fmin fmin (jitter / (jitter - g) * (1 / 10 ^ 10)) 1 c
      < eiAcquisition jitter fmin (fmin - g) 0 1 c := by
  have hd : 0 < jitter - g := by linarith
  have hj0 : 0 < jitter := by linarith
  have hr : 1 < jitter / (jitter - g) := by
    rw [one_lt_div hd]
    linarith
  have h1 : clipStd (jitter / (jitter - g) * (1 / 10 ^ 10)) = jitter / (jitter - g) * (1 / 10 ^ 10) := by
    rw [clipStd_eq_max]
    refine max_eq_left ?_
    nlinarith
  have h2 : clipStd 0 = 1 / 10 ^ 10 := by
    rw [clipStd_eq_max]
    exact max_eq_right (by norm_num)
  simp only [eiAcquisition, weightedAcq, eiValue_std, h1, h2, mul_one]
  have h3 : (fmin - fmin - jitter) / (jitter / (jitter - g) * (1 / 10 ^ 10)) = (fmin - (fmin - g) - jitter) / (1 / 10 ^ 10) := by
    field_simp
    ring
  rw [h3, div_lt_div_iff_of_pos_right hc, neg_lt_neg_iff]
  exact mul_lt_mul_of_pos_right (by nlinarith) (stdEI_pos _)

/-! ## An example: Lipschitz bounds -/

/-- A rational number close to a real one. -/
noncomputable def nearRat (η : ℝ) (y : ℝ) : ℚ := if h : 0 < η then (exists_rat_near y h).choose else 0

theorem nearRat_spec {η : ℝ} (h : 0 < η) (y : ℝ) : |y - nearRat η y| < η := by
  rw [nearRat, dif_pos h]
  exact (exists_rat_near y h).choose_spec

/-- The model of `Props/Regret`, with its smallest mean at the data. -/
noncomputable def exBelief (t : BOState) : Belief where
  mean := fun x => exMid t x
  dev := fun x => exHalf t x
  fmin := ((t.X.map fun x => (exMid t x : ℝ)).foldl min (exMid t (t.X.headD []) : ℝ))
  shift := 0
  scale := 1

theorem exHalf_data {t : BOState} (ht : t.Y = some (t.X.map exValley)) {x : Vec} (hx : x ∈ t.X) : exHalf t x ≤ 0 := by
  have hmem : (x, exValley x) ∈ exData t := by
    unfold exData
    rw [ht]
    obtain ⟨i, hi, rfl⟩ := List.mem_iff_getElem.1 hx
    refine List.mem_iff_getElem.2 ⟨i, by simpa using hi, by simp⟩
  have hb : ∀ (D : List (Vec × ℚ)) (p : Vec × ℚ), p ∈ D →
      p.2 - |x.headD 0 - p.1.headD 0| ≤ exLower D x ∧ exUpper D x ≤ p.2 + |x.headD 0 - p.1.headD 0| := by
    intro D p hp
    induction D with
    | nil => simp at hp
    | cons e D ih =>
      simp only [exLower, exUpper, List.foldr_cons] at ih ⊢
      rcases List.mem_cons.1 hp with rfl | hp
      · exact ⟨le_max_right _ _, min_le_right _ _⟩
      · exact ⟨(ih hp).1.trans (le_max_left _ _), (min_le_left _ _).trans (ih hp).2⟩
  obtain ⟨h1, h2⟩ := hb _ _ hmem
  simp only [sub_self, abs_zero, sub_zero, add_zero] at h1 h2
  unfold exHalf
  linarith

theorem exBelief_trusted (t : BOState) (ht : t.Y = some (t.X.map exValley)) (hne : t.X ≠ []) :
    Trusted [.continuous 0 1] exValley 1 0 t.X (exBelief t) where
  scale := one_pos
  covers := fun x hx => by
    have h := (exLip_calibrated t ht).2 x hx
    have h' : |((((exValley x - 0) / 1 - exMid t x : ℚ)) : ℝ)| ≤ ((1 * exHalf t x : ℚ) : ℝ) := by exact_mod_cast h
    push_cast at h'
    simpa [Belief.std, exBelief] using h'
  incumbent := by
    obtain ⟨p, l, hl⟩ := List.exists_cons_of_ne_nil hne
    obtain ⟨-, -, h3⟩ := foldl_min_le_mem (t.X.map fun x => (exMid t x : ℝ)) (exMid t (t.X.headD []) : ℝ)
    rcases h3 with h3 | h3
    · exact ⟨t.X.headD [], by rw [hl]; simp, h3⟩
    · obtain ⟨x, hx, hxe⟩ := List.mem_map.1 h3
      exact ⟨x, hx, hxe.symm⟩
  least := fun x hx => (foldl_min_le_mem (t.X.map fun x => (exMid t x : ℝ)) _).2.1 _ (List.mem_map_of_mem hx)
  sure := fun x hx => by
    have := exHalf_data ht hx
    show ((exHalf t x : ℚ) : ℝ) ≤ 0
    exact_mod_cast this

/-- Expected improvement with jitter `1/100`, up to `1/1000`. -/
noncomputable def exEIEnvs (t : BOState) : EvalEnv :=
  { exEnv with
    f := fun x => .ok (nearRat (1 / 1000)
      (eiAcquisition (1 / 100) (exBelief t).fmin ((exBelief t).mean x) ((exBelief t).dev x) 1 1))
    oracle := ⟨exStay, exAcq⟩ }

theorem exEI_improvement (t : BOState) : ImprovementF (1 / 1000) (1 / 100) (exBelief t) (exEIEnvs t).f := by
  intro x v hv
  simp only [exEIEnvs, Except.ok.injEq] at hv
  subst hv
  rw [abs_sub_comm]
  exact (nearRat_spec (by norm_num) _).le

noncomputable def exEIBO (sp : Space) : BOEnv :=
  { exSearch sp with
    obj := some fun _ x => .ok (exValley x)
    suggest := stdSuggest sp .sequential exEIEnvs false }

theorem exEI_calm (sp : Space) : CalmBO sp .sequential false (exEIBO sp) exEIEnvs where
  space := rfl
  suggest := rfl
  fit := fun _ _ _ => rfl
  params := fun _ => ⟨_, rfl⟩
  costFit := fun _ => rfl
  interval := by show (2 : Int) ≠ 0; decide
  calm := fun _ => {
    good := ⟨⟨by simp [exEIEnvs, exEnv], by simp [exEIEnvs, exEnv], by simp [exEIEnvs, exEnv]⟩, exStay_good, exAcq_good,
      by simp [exEIEnvs, exEnv], by simp [exEIEnvs, exEnv]⟩
    name := by simp [exEIEnvs, exEnv]
    logic := by simp [exEIEnvs, exEnv]
    f := fun _ => ⟨_, rfl⟩
    opt := fun _ _ _ => ⟨_, rfl⟩
    thompson := fun _ => ⟨_, rfl⟩
    batchOpt := fun _ _ _ => ⟨_, rfl⟩
    batchThompson := fun _ => ⟨_, rfl⟩
    lp := fun _ => exAcq_good
    lpOpt := fun _ _ _ _ => ⟨_, rfl⟩
    lpThompson := fun _ _ => ⟨_, rfl⟩
    fLP := fun _ _ => ⟨_, rfl⟩
    consts := ⟨_, rfl⟩ }
  samples := by
    intro s n hn
    cases hn
  obj := ⟨_, rfl, fun _ _ _ => ⟨_, rfl⟩⟩

/-- The hypotheses of `C172_probability`, and therefore those of the other theorems, are met by search with Lipschitz bounds; no
deviation is left at the data. -/
example (K : Nat) (q : ℚ) {sp : Space} (h : designSpace exUnitLine none = .ok sp) :
    open Classical in
    (1 - (1 - targetRatio 8 sp.kinds none fun x => exValley x ≤ q) ^ 5) ^ K ≤
      ((Finset.univ.filter fun ω : Draws 8 K 1 5 sp.kinds =>
        ∃ s' r σ x, runOptimization (confBO (exEIBO sp) sp 5 (drawsOf (fun _ _ => 0) (fun _ => exOracle) ω) exEIEnvs)
          { maxIter := some (.fin K), maxTime := none, eps := -1 } (K + 1) (boInit [[0]] none .none) = (s', .done .limit) ∧
          s'.numAcq = K ∧ s'.results = some r ∧ Iterates exValley none 1 s' σ x ∧
          K * ((r.fxOpt : ℝ) - q) ≤
            ∑ k ∈ Finset.range K, (exBelief (σ k)).scale * (1 / 100 + (1 + improvementRatio 1) * (1 * 0)) +
            improvementRatio 1 * ((exValley [0] - r.fxOpt) + ∑ k ∈ Finset.range K,
              (exBelief (σ k)).scale * ((1 + 1 / 2) * clipStd ((exBelief (σ k)).dev (x k)) + 2 * (1 / 1000)))).card : ℝ) /
        Fintype.card (Draws 8 K 1 5 sp.kinds) := by
  have hk : kindsOf exUnitLine = [.continuous 0 1] := by decide +kernel
  have hkk := space_kinds_eq h
  have hb : sp.hasBandit = false := by
    have : (designSpace exUnitLine none).map Space.hasBandit = .ok false := by decide +kernel
    rw [h] at this
    simpa [Except.map] using this
  exact C172_probability (M := 8) (K := K) (N := 5) h hb (by rw [hk]; simp [Samplable]) (by rw [hk]; simp)
    (by rw [hk]; intro k hk; exact ⟨0, 1, by simpa using hk⟩) (by omega) (fun _ _ => 0) (fun _ => exOracle)
    (fun _ => exOracle_unit) 1 (1 / 1000) (1 / 100) zero_le_one (by norm_num) (by norm_num) (fun _ => 0) exBelief exValley
    (fun t ht hne => by rw [hk]; exact exBelief_trusted t ht hne) (fun _ => exEIEnvs) (fun _ t => exEI_improvement t)
    (fun _ _ => rfl) (fun _ _ k => exStay_descends k _) (fun _ => exEIBO sp) (fun _ => exEI_calm sp) (fun _ => rfl)
    { maxIter := some (.fin K), maxTime := none, eps := -1 } rfl rfl rfl (by norm_num) (K + 1) (by omega)
    (boInit [[0]] none .none) (by
      rw [hkk, hk]
      simp [boInit, ObjDomain, ValidObj]) (by left; rfl) (by simp [SoundCost, boInit, costModelInit]) [0] (by simp [boInit]) q

/-- The default jitter and an improvement by `0.009`. -/
example : eiAcquisition (1 / 100) 0 0 (1 / 10 ^ 9) 1 1 < eiAcquisition (1 / 100) 0 (0 - 9 / 1000) 0 1 1 := by
  have := C172_jitter_counterexample (1 / 100) (9 / 1000) 0 1 (by norm_num) (by norm_num) one_pos
  norm_num at this ⊢
  exact this

end GPyOpt.Props
