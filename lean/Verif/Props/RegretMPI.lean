import Verif.Props.RegretEI

/-!
# C176: the regret of search by the probability of improvement

If the intervals `mean ± w * dev` of the model contain the objective, then every suggestion of the acquisition `MPI` is, up to a
multiple of the deviation there, better than the incumbent by the jitter, as long as a sample is.  So the search comes within
the jitter of the values it samples, and the number of suggestions with small deviations that this takes is bounded.
-/

namespace GPyOpt.Props

open GPyOpt Spec

/-! ## Suggestions -/

/-- The numbers `f` that are minimized are those of the acquisition `MPI` in a space without constraints, up to `η`. -/
def ProbabilityF (η jitter : ℝ) (b : Belief) (f : Vec → Py ℚ) : Prop :=
  ∀ x v, f x = .ok v → |(v : ℝ) - mpiAcquisition jitter b.fmin (b.mean x) (b.dev x) 1 1| ≤ η

theorem mpiAcquisition_std (j fmin m s : ℝ) : mpiAcquisition j fmin m s 1 1 = -ncdf ((fmin - m - j) / clipStd s) := by
  simp [mpiAcquisition, weightedAcq, mpiValue, getQuantiles]

/-- One step in standardized units: `x` is suggested, `z` was sampled and is better than the incumbent by the jitter. -/
theorem probability_step {ks : List Kind} {F : Vec → ℚ} {w w' δ η jitter : ℝ} (hw : 0 ≤ w)
    (hη : 2 * η < ncdf (-w) - ncdf (-w')) {X : Mat} {b : Belief} (hb : Trusted ks F w δ X b) {x z : Vec}
    (hx : ObjDomain ks x) (hz : ObjDomain ks z)
    (hle : mpiAcquisition jitter b.fmin (b.mean x) (b.dev x) 1 1
      ≤ mpiAcquisition jitter b.fmin (b.mean z) (b.dev z) 1 1 + 2 * η)
    (hzf : b.std (F z) ≤ b.fmin - jitter) :
    b.std (F x) ≤ b.fmin - jitter + (w + w') * clipStd (b.dev x) := by
  rw [mpiAcquisition_std, mpiAcquisition_std] at hle
  have hsx := clipStd_pos (b.dev x)
  have hsz := clipStd_pos (b.dev z)
  -- the sample is at least at the lower end of its interval
  have h1 : -w ≤ (b.fmin - b.mean z - jitter) / clipStd (b.dev z) := by
    rw [le_div_iff₀ hsz]
    linarith [(abs_le.1 (clip_covers hw (hb.covers z hz))).1]
  have h2 := ncdf_strictMono.monotone h1
  -- so is the suggestion, almost
  have h3 : -w' < (b.fmin - b.mean x - jitter) / clipStd (b.dev x) := ncdf_strictMono.lt_iff_lt.1 (by linarith)
  rw [lt_div_iff₀ hsx] at h3
  have h4 := (abs_le.1 (clip_covers hw (hb.covers x hx))).2
  linarith

/-- The suggestion for any acquisition: its computed value is at most that of every sample that is not in the data. -/
theorem least_suggestion {config : List Desc} {sp : Space} (h : designSpace config none = .ok sp)
    (hb : sp.hasBandit = false) (hs : ∀ k ∈ kindsOf config, Samplable k) (hvar : kindsOf config ≠ [])
    (hk : AllCont (kindsOf config)) {context : Option Context} (hg : ValidContext sp context) {env : EvalEnv}
    (henv : GoodEnv env) (hlogic : env.op.anchorLogic = "max_objective")
    (hopt : ∀ c, contextManager sp context = .ok c → ∀ k, Descends (env.oracle.acq.opt k) c.noncontextBounds)
    {X : Mat} {deDup : Bool} {m : Mat} (hm : computeNext .sequential env sp context deDup X none none = .ok m) :
    ∃ x Z, m = [x] ∧ ObjDomain (kindsOf config) x ∧
      Sampled config sp context env.oracle.acq.design env.op.numSamplesObjective Z ∧
      ∀ z ∈ Z, ObjDomain (kindsOf config) z ∧ (z ∈ X ∨ ∃ u v : ℚ, env.f x = .ok u ∧ env.f z = .ok v ∧ u ≤ v) := by
  obtain ⟨c, bt, hc, hbt, hzip⟩ := computeNext_cases hm
  simp only [computeBatch, sequentialBatch] at hbt
  generalize hdup : (if deDup = true then some (dupMgr X none none) else none) = dup at hbt
  cases hx : acqOptimize sp c dup env.op env.oracle.acq env.f with
  | error e => simp [hx] at hbt
  | ok r =>
    obtain ⟨x, v⟩ := r
    simp only [hx, Except.ok.injEq] at hbt
    subst hbt
    obtain ⟨ds, sp', Y, Z, h1, h2, h3, h4, h5, h6, h7, h8⟩ :=
      as_good_as_design h hb hs hvar hk context hg c hc dup env.op henv.op hlogic env.oracle.acq henv.acq (hopt c hc) _ (x, v) hx
    have hkk := space_kinds_eq h
    obtain ⟨x', ⟨hx1, hx2, -⟩, -, hx3⟩ := acqOptimize_sound h hb (hkk ▸ hs) (hkk ▸ hvar) hg hc henv.op henv.acq hx
    rw [encodeRow_cont (hkk ▸ hk) hx2.length_eq] at hx1
    simp only at hx1 hx3
    subst hx1
    have hxe : encodeRow sp.kinds x = x := encodeRow_cont (hkk ▸ hk) hx2.length_eq
    have hzz := zipInputs_encode_all h hb (Z := [x]) (by simp) (by simpa using hx2)
    simp only [List.map_cons, List.map_nil, hxe] at hzz
    rw [hzz] at hzip
    simp only [Except.ok.injEq] at hzip
    refine ⟨x, Z, hzip.symm, hkk ▸ hx2, ⟨c, ds, sp', Y, hc, h1, h2, h3, h4, h5, h6⟩, fun z hz => ?_⟩
    obtain ⟨y, -, hy, -⟩ := forall₂_mem_right h6 hz
    refine ⟨hy, ?_⟩
    by_cases hd : InDup dup z
    · left
      obtain ⟨dm, hd1, hd2⟩ := hd
      rw [← hdup] at hd1
      split_ifs at hd1
      cases hd1
      simpa [dupMgr] using hd2
    · right
      obtain ⟨v', hv1, hv2⟩ := h8 z hz hd
      exact ⟨v, v', hx3, hv1, hv2⟩

/-- **C176**, one step: the suggestion for continuous variables, with any context, with or without de-duplication.  If some
sample that is not in the data is better than the incumbent by the jitter, then so is the suggestion, up to `w + w'` times the
deviation there.  `w'` is only a little more than `w` if the error `η` of the acquisition is small. -/
theorem C176_step {config : List Desc} {sp : Space} (h : designSpace config none = .ok sp)
    (hb : sp.hasBandit = false) (hs : ∀ k ∈ kindsOf config, Samplable k) (hvar : kindsOf config ≠ [])
    (hk : AllCont (kindsOf config)) (context : Option Context) (hg : ValidContext sp context) (env : EvalEnv)
    (henv : GoodEnv env) (hlogic : env.op.anchorLogic = "max_objective")
    (hopt : ∀ c, contextManager sp context = .ok c → ∀ k, Descends (env.oracle.acq.opt k) c.noncontextBounds)
    (w w' δ η jitter : ℝ) (hw : 0 ≤ w) (hη : 2 * η < ncdf (-w) - ncdf (-w')) (F : Vec → ℚ) (X : Mat) (b : Belief)
    (hcal : Trusted (kindsOf config) F w δ X b) (hf : ProbabilityF η jitter b env.f) (deDup : Bool) (m : Mat)
    (hm : computeNext .sequential env sp context deDup X none none = .ok m) :
    ∃ x Z, m = [x] ∧ ObjDomain (kindsOf config) x ∧
      Sampled config sp context env.oracle.acq.design env.op.numSamplesObjective Z ∧
      ((∃ z ∈ Z, z ∉ X ∧ b.std (F z) ≤ b.fmin - jitter) →
        b.std (F x) ≤ b.fmin - jitter + (w + w') * clipStd (b.dev x)) := by
  obtain ⟨x, Z, e1, e2, e3, e4⟩ := least_suggestion h hb hs hvar hk hg henv hlogic hopt hm
  refine ⟨x, Z, e1, e2, e3, ?_⟩
  rintro ⟨z, hz, hzX, hzf⟩
  obtain ⟨hzd, hz'⟩ := e4 z hz
  obtain ⟨u, v, hu, hv, huv⟩ := hz'.resolve_left hzX
  refine probability_step hw hη hcal e2 hzd ?_ hzf
  have q1 := (abs_le.1 (hf _ _ hu)).1
  have q2 := (abs_le.1 (hf _ _ hv)).2
  have q3 : (u : ℝ) ≤ v := by exact_mod_cast huv
  linarith

/-! ## Runs -/

/-- One step in the units of the objective, while the best value at the data exceeds `q` by more than the jitter. -/
theorem probability_units {ks : List Kind} {F : Vec → ℚ} {w w' δ jitter : ℝ} (hw : 0 ≤ w) (hj : 0 ≤ jitter) {X : Mat}
    {b : Belief} (hb : Trusted ks F w δ X b) (hX : ∀ x ∈ X, ObjDomain ks x) {x z : Vec}
    (hstep : z ∉ X → b.std (F z) ≤ b.fmin - jitter → b.std (F x) ≤ b.fmin - jitter + (w + w') * clipStd (b.dev x))
    {v y q : ℚ} (hv : ∀ x ∈ X, v ≤ F x) (hzq : F z ≤ q) (hgap : (q : ℝ) + b.scale * (jitter + w * δ) < v)
    (hy : ∃ p ∈ X, y = F p) : (F x : ℝ) ≤ y - b.scale * (jitter - w * δ - (w + w') * clipStd (b.dev x)) := by
  have hsc := hb.scale
  obtain ⟨p, hp, hpe⟩ := hb.incumbent
  have hδ : 0 ≤ w * δ := by
    have h1 := (abs_nonneg _).trans (hb.covers p (hX p hp))
    exact h1.trans (mul_le_mul_of_nonneg_left (hb.sure p hp) hw)
  have hstd : ∀ u : ℚ, b.scale * b.std u = u - b.shift := by
    intro u
    rw [Belief.std, mul_div_cancel₀ _ hsc.ne']
  have hzq' : (F z : ℝ) ≤ q := by exact_mod_cast hzq
  have hlow : (v : ℝ) ≤ b.scale * b.fmin + b.shift + b.scale * (w * δ) := by
    have h1 := (abs_le.1 (hb.covers p (hX p hp))).2
    have h2 := mul_le_mul_of_nonneg_left (hb.sure p hp) hw
    have h3 : b.std (F p) ≤ b.fmin + w * δ := by rw [hpe]; linarith
    have h4 := mul_le_mul_of_nonneg_left h3 hsc.le
    rw [hstd, mul_add] at h4
    have : (v : ℝ) ≤ F p := by exact_mod_cast hv p hp
    linarith
  have hup : b.scale * b.fmin + b.shift ≤ y + b.scale * (w * δ) := by
    obtain ⟨r, hr, rfl⟩ := hy
    have h1 := (abs_le.1 (hb.covers r (hX r hr))).1
    have h2 := mul_le_mul_of_nonneg_left (hb.sure r hr) hw
    have h3 : b.fmin ≤ b.std (F r) + w * δ := by linarith [hb.least r hr]
    have h4 := mul_le_mul_of_nonneg_left h3 hsc.le
    rw [mul_add, hstd] at h4
    linarith
  rw [mul_add] at hgap
  have hzX : z ∉ X := by
    intro hz
    have : (v : ℝ) ≤ F z := by exact_mod_cast hv z hz
    linarith [mul_nonneg hsc.le hj, mul_nonneg hsc.le hδ]
  have hz : b.std (F z) ≤ b.fmin - jitter := by
    refine le_of_mul_le_mul_left ?_ hsc
    rw [hstd, mul_sub]
    linarith
  have h5 := mul_le_mul_of_nonneg_left (hstep hzX hz) hsc.le
  rw [hstd, mul_add, mul_sub] at h5
  rw [mul_sub, mul_sub]
  linarith

/-- The gains of a run: whatever the reason that the suggestions improve on the incumbent if samples do. -/
theorem jitter_total {ks : List Kind} {F : Vec → ℚ} {w w' jitter : ℝ} (hw : 0 ≤ w) (hj : 0 ≤ jitter)
    {δ : BOState → ℝ} {b : BOState → Belief} {K : Nat} {v : ℚ} {σ : Nat → BOState} {x : Nat → Vec} {y0 : ℚ} (h0 : v ≤ y0)
    (r2 : ∀ k < K, v ≤ F (x k) ∧ ∀ u ∈ (σ k).X, v ≤ F u) (hdata : ∀ k < K, ∃ p ∈ (σ k).X, bestAfter F y0 x k = F p)
    (r5 : ∀ k < K, (∀ y ∈ (σ k).X, ObjDomain ks y) ∧ Trusted ks F w (δ (σ k)) (σ k).X (b (σ k))) {q : ℚ}
    (hq : ∀ k < K, ∃ z, F z ≤ q ∧ (z ∉ (σ k).X → (b (σ k)).std (F z) ≤ (b (σ k)).fmin - jitter →
      (b (σ k)).std (F (x k)) ≤ (b (σ k)).fmin - jitter + (w + w') * clipStd ((b (σ k)).dev (x k)))) :
    (∃ k < K, (v : ℝ) ≤ q + (b (σ k)).scale * (jitter + w * δ (σ k))) ∨
    (∑ k ∈ Finset.range K, max 0 ((b (σ k)).scale *
        (jitter - w * δ (σ k) - (w + w') * clipStd ((b (σ k)).dev (x k)))) ≤ y0 - v ∧
      ∀ σ₀ : ℝ, 0 ≤ σ₀ → (∀ k < K, σ₀ ≤ (b (σ k)).scale) →
        (((Finset.range K).filter fun k =>
          w * δ (σ k) + (w + w') * clipStd ((b (σ k)).dev (x k)) ≤ jitter / 2).card : ℝ) * (σ₀ * (jitter / 2))
          ≤ y0 - v) := by
  by_cases hfar : ∃ k < K, (v : ℝ) ≤ q + (b (σ k)).scale * (jitter + w * δ (σ k))
  · exact .inl hfar
  right
  push Not at hfar
  let B := bestAfter F y0 x
  have hstep : ∀ k ∈ Finset.range K, max 0 ((b (σ k)).scale *
      (jitter - w * δ (σ k) - (w + w') * clipStd ((b (σ k)).dev (x k)))) ≤ (B k : ℝ) - (B (k + 1) : ℚ) := by
    intro k hk
    have hk := Finset.mem_range.1 hk
    obtain ⟨d1, d5⟩ := r5 k hk
    obtain ⟨z, hzq, hz⟩ := hq k hk
    have hu := probability_units hw hj d5 d1 hz (r2 k hk).2 hzq
      (hfar k hk) (hdata k hk)
    have h1 : ((B (k + 1) : ℚ) : ℝ) ≤ F (x k) := by exact_mod_cast min_le_right (B k) (F (x k))
    have h2 : ((B (k + 1) : ℚ) : ℝ) ≤ B k := by exact_mod_cast min_le_left (B k) (F (x k))
    exact max_le (by linarith) (by linarith)
  have hsum := Finset.sum_le_sum hstep
  rw [Finset.sum_range_sub' (fun k => (B k : ℝ))] at hsum
  have hlast : (v : ℝ) ≤ B K := by
    have : ∀ k ≤ K, v ≤ B k := by
      intro k
      induction k with
      | zero => intro _; exact h0
      | succ k ih =>
        intro hk
        exact le_min (ih (by omega)) (r2 k (by omega)).1
    exact_mod_cast this _ (le_refl _)
  have hB0 : (B 0 : ℝ) = y0 := rfl
  have htot : ∑ k ∈ Finset.range K, max 0 ((b (σ k)).scale *
      (jitter - w * δ (σ k) - (w + w') * clipStd ((b (σ k)).dev (x k)))) ≤ (y0 : ℝ) - v := by
    rw [hB0] at hsum
    linarith
  refine ⟨htot, fun σ₀ hσ hscale => le_trans ?_ htot⟩
  rw [← nsmul_eq_mul, ← Finset.sum_const]
  refine (Finset.sum_le_sum fun k hk => ?_).trans (Finset.sum_le_sum_of_subset_of_nonneg (Finset.filter_subset _ _)
    fun k _ _ => le_max_left _ _)
  obtain ⟨hk1, hk2⟩ := Finset.mem_filter.1 hk
  refine le_max_of_le_right ?_
  exact mul_le_mul (hscale k (Finset.mem_range.1 hk1)) (by linarith) (by linarith) (hσ.trans (hscale k (Finset.mem_range.1 hk1)))

theorem jitter_sum {ks : List Kind} {F : Vec → ℚ} {w w' jitter : ℝ} (hw : 0 ≤ w) (hj : 0 ≤ jitter)
    {δ : BOState → ℝ} {b : BOState → Belief} {context : Option Context} {s s' : BOState} {r : Results} {σ : Nat → BOState}
    {x : Nat → Vec} {x0 : Vec} (hx0 : x0 ∈ s.X) (r2 : ∀ x ∈ s'.X, r.fxOpt ≤ F x) (r3 : s.X <+: s'.X)
    (r4 : Iterates F context s.X.length s' σ x)
    (r5 : ∀ k < s'.numAcq, (∀ y ∈ (σ k).X, ObjDomain ks y) ∧ Trusted ks F w (δ (σ k)) (σ k).X (b (σ k))) {q : ℚ}
    (hq : ∀ k < s'.numAcq, ∃ z, F z ≤ q ∧ (z ∉ (σ k).X → (b (σ k)).std (F z) ≤ (b (σ k)).fmin - jitter →
      (b (σ k)).std (F (x k)) ≤ (b (σ k)).fmin - jitter + (w + w') * clipStd ((b (σ k)).dev (x k)))) :
    (∃ k < s'.numAcq, (r.fxOpt : ℝ) ≤ q + (b (σ k)).scale * (jitter + w * δ (σ k))) ∨
    (∑ k ∈ Finset.range s'.numAcq, max 0 ((b (σ k)).scale *
        (jitter - w * δ (σ k) - (w + w') * clipStd ((b (σ k)).dev (x k)))) ≤ F x0 - r.fxOpt ∧
      ∀ σ₀ : ℝ, 0 ≤ σ₀ → (∀ k < s'.numAcq, σ₀ ≤ (b (σ k)).scale) →
        (((Finset.range s'.numAcq).filter fun k =>
          w * δ (σ k) + (w + w') * clipStd ((b (σ k)).dev (x k)) ≤ jitter / 2).card : ℝ) * (σ₀ * (jitter / 2))
          ≤ F x0 - r.fxOpt) :=
  jitter_total hw hj (r2 x0 (r3.subset hx0))
    (fun k hk => ⟨r2 _ (List.mem_of_getElem? (r4 k hk).2.2.2.2), fun u hu => r2 u (List.mem_of_mem_take ((r4 k hk).2.2.1 ▸ hu))⟩)
    (iterates_best hx0 r3 r4) r5 hq

/-- **C176**, a run: acquisition `MPI`, suggestions one at a time, continuous variables without constraints, any context, with or
without de-duplication, and a model whose intervals contain the objective whenever its data are values of the objective.  If
every iteration samples a value of at most `q`, then the reported optimum exceeds `q` by at most the jitter and the width at
the data, or the parts of the jitter that the widths leave, summed over the iterations, are at most the total gain `F x0 - fx_opt`.
In the second case there are at most `(F x0 - fx_opt) / (σ₀ * jitter / 2)` suggestions whose widths are at most half the jitter. -/
theorem C176_run {config : List Desc} {sp : Space} (h : designSpace config none = .ok sp) (hb : sp.hasBandit = false)
    (hs : ∀ k ∈ kindsOf config, Samplable k) (hvar : kindsOf config ≠ []) (hk : AllCont (kindsOf config))
    (w w' η jitter : ℝ) (hw : 0 ≤ w) (hj : 0 ≤ jitter) (hη : 2 * η < ncdf (-w) - ncdf (-w')) (δ : BOState → ℝ)
    (b : BOState → Belief) (F : Vec → ℚ)
    (hcal : ∀ t, t.Y = some (t.X.map F) → t.X ≠ [] → Trusted (kindsOf config) F w (δ t) t.X (b t))
    (envs : BOState → EvalEnv) (henvs : ∀ t, GoodEnv (envs t)) (hf : ∀ t, ProbabilityF η jitter (b t) (envs t).f)
    (hlogic : ∀ t, (envs t).op.anchorLogic = "max_objective") (deDup : Bool) (env : BOEnv)
    (hsug : env.suggest = stdSuggest sp .sequential envs deDup) (hobj : env.obj = some fun _ x => .ok (F x))
    (a : RunArgs) (hg : ValidContext sp a.context)
    (hopt : ∀ t c, contextManager sp a.context = .ok c → ∀ k, Descends ((envs t).oracle.acq.opt k) c.noncontextBounds)
    (fuel : Nat) (s s' : BOState) (why : Stop) (hX : ∀ x ∈ s.X, ObjDomain (kindsOf config) x)
    (hY : s.Y = none ∨ s.Y = some (s.X.map F)) (hrun : runOptimization env a fuel s = (s', .done why))
    (x0 : Vec) (hx0 : x0 ∈ s.X) :
    ∃ (r : Results) (σ : Nat → BOState) (x : Nat → Vec) (Z : Nat → Mat), s'.results = some r ∧
      Iterates F a.context s.X.length s' σ x ∧
      (∀ k < s'.numAcq, Sampled config sp a.context (envs (σ k)).oracle.acq.design (envs (σ k)).op.numSamplesObjective (Z k)) ∧
      ∀ q : ℚ, (∀ k < s'.numAcq, ∃ z ∈ Z k, F z ≤ q) →
        (∃ k < s'.numAcq, (r.fxOpt : ℝ) ≤ q + (b (σ k)).scale * (jitter + w * δ (σ k))) ∨
        (∑ k ∈ Finset.range s'.numAcq, max 0 ((b (σ k)).scale *
            (jitter - w * δ (σ k) - (w + w') * clipStd ((b (σ k)).dev (x k)))) ≤ F x0 - r.fxOpt ∧
          ∀ σ₀ : ℝ, 0 ≤ σ₀ → (∀ k < s'.numAcq, σ₀ ≤ (b (σ k)).scale) →
            (((Finset.range s'.numAcq).filter fun k =>
              w * δ (σ k) + (w + w') * clipStd ((b (σ k)).dev (x k)) ≤ jitter / 2).card : ℝ) * (σ₀ * (jitter / 2))
              ≤ F x0 - r.fxOpt) := by
  have hne : s.X ≠ [] := List.ne_nil_of_mem hx0
  obtain ⟨r, σ, x, Z, r1, r2, r3, r4, r5⟩ := run_suggestions (ks := kindsOf config) (F := F) (env := env)
    (P := fun t x Z => Sampled config sp a.context (envs t).oracle.acq.design (envs t).op.numSamplesObjective Z ∧
      Trusted (kindsOf config) F w (δ t) t.X (b t) ∧
      ((∃ z ∈ Z, z ∉ t.X ∧ (b t).std (F z) ≤ (b t).fmin - jitter) →
        (b t).std (F x) ≤ (b t).fmin - jitter + (w + w') * clipStd ((b t).dev x))) hobj a
    (fun t m hm => by
      rw [hsug] at hm
      exact computeNext_one hm)
    (fun t x t1 t2 t3 t4 => by
      rw [hsug] at t4
      unfold stdSuggest at t4
      rw [t1] at t4
      obtain ⟨x', Z, e1, e2, e3, e4⟩ := C176_step h hb hs hvar hk a.context hg (envs t) (henvs t) (hlogic t) (hopt t) w w'
        (δ t) η jitter hw hη F t.X (b t) (hcal t t2 t3) (hf t) deDup [x] t4
      simp only [List.cons.injEq, and_true] at e1
      subst e1
      exact ⟨e2, Z, e3, hcal t t2 t3, e4⟩) hne hX hY hrun
  refine ⟨r, σ, x, Z, r1, r4, fun k hk => (r5 k hk).2.2.2.1, fun q hq => ?_⟩
  refine jitter_sum hw hj hx0 r2 r3 r4 (fun k hk => ⟨(r5 k hk).1, (r5 k hk).2.2.2.2.1⟩) fun k hk => ?_
  obtain ⟨z, hz, hzq⟩ := hq k hk
  exact ⟨z, hzq, fun h1 h2 => (r5 k hk).2.2.2.2.2 ⟨z, hz, h1, h2⟩⟩

/-- What `C176_run` says about a run of `K` iterations from the value `y0` to the reported optimum `v`. -/
def JitterBound (w w' jitter : ℝ) (δ : BOState → ℝ) (b : BOState → Belief) (σ : Nat → BOState) (x : Nat → Vec) (K : Nat)
    (q y0 v : ℚ) : Prop :=
  (∃ k < K, (v : ℝ) ≤ q + (b (σ k)).scale * (jitter + w * δ (σ k))) ∨
    ∑ k ∈ Finset.range K, max 0 ((b (σ k)).scale *
      (jitter - w * δ (σ k) - (w + w') * clipStd ((b (σ k)).dev (x k)))) ≤ (y0 : ℝ) - v

/-- **C176**, how likely the bound holds for a quantile of the objective: nothing raises, the run makes `K` suggestions one at
a time without context, de-duplication and stop for close locations, and the samples of the acquisition optimizer are drawn
uniformly and independently, `N` per iteration. Let `γ` be the probability that a location drawn uniformly from the domain
has a value of at most `q`. Then with probability at least `(1 - (1 - γ) ^ N) ^ K` the run completes and the alternative of
`C176_run` holds. -/
theorem C176_probability {config : List Desc} {sp : Space} (h : designSpace config none = .ok sp) (hb : sp.hasBandit = false)
    (hs : ∀ k ∈ kindsOf config, Samplable k) (hvar : kindsOf config ≠ []) (hk : AllCont (kindsOf config))
    {M K N : Nat} (hN : 0 < N) (junk : Nat → Nat → ℚ) (rest : Nat → DesignOracle) (hrest : ∀ k, UnitOracle (rest k))
    (w w' η jitter : ℝ) (hw : 0 ≤ w) (hj : 0 ≤ jitter) (hη : 2 * η < ncdf (-w) - ncdf (-w')) (δ : BOState → ℝ)
    (b : BOState → Belief) (F : Vec → ℚ)
    (hcal : ∀ t, t.Y = some (t.X.map F) → t.X ≠ [] → Trusted (kindsOf config) F w (δ t) t.X (b t))
    (envs : Draws M K 1 N sp.kinds → BOState → EvalEnv) (hf : ∀ ω t, ProbabilityF η jitter (b t) (envs ω t).f)
    (hlogic : ∀ ω t, (envs ω t).op.anchorLogic = "max_objective")
    (hopt : ∀ ω t k, Descends ((envs ω t).oracle.acq.opt k) (sp.kinds.map contBox))
    (env : Draws M K 1 N sp.kinds → BOEnv)
    (hr : ∀ ω, CalmBO sp .sequential false { env ω with suggest := stdSuggest sp .sequential (envs ω) false } (envs ω))
    (hobj : ∀ ω, (env ω).obj = some fun _ x => .ok (F x))
    (a : RunArgs) (ha : a.context = none) (hK : a.maxIter = some (.fin K)) (ht : a.maxTime = none) (heps : a.eps < 0)
    (fuel : Nat) (hfuel : K < fuel) (s : BOState) (hX : ∀ x ∈ s.X, ObjDomain sp.kinds x)
    (hY : s.Y = none ∨ s.Y = some (s.X.map F)) (hc : SoundCost s.cost) (x0 : Vec) (hx0 : x0 ∈ s.X) (q : ℚ) :
    open Classical in
    (1 - (1 - targetRatio M sp.kinds none fun x => F x ≤ q) ^ N) ^ K ≤
      ((Finset.univ.filter fun ω : Draws M K 1 N sp.kinds =>
        ∃ s' r σ x, runOptimization (confBO (env ω) sp N (drawsOf junk rest ω) (envs ω)) a fuel s = (s', .done .limit) ∧
          s'.numAcq = K ∧ s'.results = some r ∧ Iterates F none s.X.length s' σ x ∧
          JitterBound w w' jitter δ b σ x K q (F x0) r.fxOpt).card : ℝ) /
        Fintype.card (Draws M K 1 N sp.kinds) := by
  classical
  have hkk := space_kinds_eq h
  have hne : s.X ≠ [] := List.ne_nil_of_mem hx0
  obtain ⟨G, hG⟩ : ∃ G : Vec → Prop, ∀ x, G x ↔ F x ≤ q := ⟨_, fun _ => Iff.rfl⟩
  rw [show (fun x => F x ≤ q) = G from funext fun x => propext (hG x).symm, ← share_hit M K N sp.kinds G]
  refine div_le_div_of_nonneg_right (Nat.cast_le.2 (Finset.card_le_card fun ω hω => ?_)) (Nat.cast_nonneg _)
  rw [Finset.mem_filter_univ] at hω ⊢
  have ho := unitOracle_drawsOf junk hrest ω
  have hcalm := calm_conf hN (hr ω) ho
  have hYl : ∀ Y, s.Y = some Y → Y.length = s.X.length := by
    rintro Y hY'
    rcases hY with hY | hY <;> rw [hY] at hY'
    · cases hY'
    · cases hY'
      simp
  have hg : ValidContext sp a.context := by simp [ValidContext, ha]
  rcases C140_run_completes h hb hs hvar (by simp [GoodEvaluator]) hcalm (.inl rfl) a hg K hK ht fuel hfuel s hne hX hYl hc with
    ⟨h1, h2⟩ | ⟨-, h2⟩
  swap
  · simp at h2
  rcases hx : runOptimization (confBO (env ω) sp N (drawsOf junk rest ω) (envs ω)) a fuel s with ⟨s', wh⟩
  rw [hx] at h1 h2
  simp only at h1 h2
  subst h1
  have hKn : s'.numAcq = K := by
    rcases h2 with h2 | ⟨pre, u, v, -, h2⟩
    · exact h2
    · have := Real.sqrt_nonneg ((List.zipWith (fun u v : ℚ => ((u : ℝ) - v) ^ 2) v u).sum)
      have : (a.eps : ℝ) < 0 := by exact_mod_cast heps
      linarith
  obtain ⟨r, σ, x, Z, c1, c2, c3, c4⟩ := C176_run h hb hs hvar hk w w' η jitter hw hj hη δ b F hcal
    (confEnvs N (drawsOf junk rest ω) (envs ω)) (goodEnv_conf hN ho fun s => ((hr ω).calm s).good) (fun t => hf ω t)
    (fun t => hlogic ω t) false (confBO (env ω) sp N (drawsOf junk rest ω) (envs ω)) rfl (hobj ω) a hg
    (fun t c hcm k => by
      rw [bounds_cont h hb (hkk ▸ hk) hcm, keep_true]
      · exact hopt ω t k
      · intro i
        rw [ha] at hcm
        simp [freePos, contextManager_none hcm]) fuel s s' .limit (hkk ▸ hX) hY hx x0 hx0
  rw [ha] at c2 c3
  rw [hKn] at c3 c4
  refine ⟨s', r, σ, x, rfl, hKn, c1, c2, (c4 q fun k hk => ?_).imp id fun h => h.1⟩
  have d1 := c3 k hk
  have hn : (σ k).numAcq = k := (c2 k (hKn ▸ hk)).1
  have hd : (confEnvs N (drawsOf junk rest ω) (envs ω) (σ k)).oracle.acq.design = oracleOf junk (ω ⟨k, hk⟩) := by
    simp [confEnvs, drawsOf, hn, hk]
  rw [hd] at d1
  have hZ := sampled_draws h junk (ω ⟨k, hk⟩) d1
  obtain ⟨ρ, hρ⟩ := hω ⟨k, hk⟩
  exact ⟨_, by rw [hZ, List.mem_ofFn]; exact ⟨ρ, rfl⟩, (hG _).1 hρ⟩

/-! ## The jitter -/

theorem clipStd_zero : clipStd 0 = 1 / 10 ^ 10 := by
  rw [clipStd_eq_max]
  exact max_eq_right (by norm_num)

/-- **C176** (no jitter): a location that is surely better than the incumbent by `ε` has a better acquisition than one whose
interval `mean ± w * dev` reaches a value that is better by `g`, however small `ε` and however large `g` are.  Without a jitter
the gains may be arbitrarily small. -/
theorem C176_no_jitter_counterexample (ε g w fmin c : ℝ) (hε : 0 < ε) (hg : 0 < g) (hw : 0 < w) (hc : 0 < c) :
    |(fmin - ε) - (fmin - ε)| ≤ w * 0 ∧ |(fmin - g) - fmin| ≤ w * (g / w) ∧
    mpiAcquisition 0 fmin (fmin - ε) 0 1 c < mpiAcquisition 0 fmin fmin (g / w) 1 c := by
  refine ⟨by simp, ?_, ?_⟩
  · rw [mul_div_cancel₀ _ hw.ne', show fmin - g - fmin = -g by ring, abs_neg, abs_of_pos hg]
  · simp only [mpiAcquisition, weightedAcq, mpiValue, getQuantiles, mul_one, clipStd_zero]
    rw [div_lt_div_iff_of_pos_right hc, neg_lt_neg_iff]
    refine ncdf_strictMono ?_
    rw [show fmin - fmin - 0 = 0 by ring, zero_div, show fmin - (fmin - ε) - 0 = ε by ring]
    positivity

/-- **C176** (the jitter): a location with the mean of the incumbent and a deviation of practically zero has a better acquisition
than one that the model knows to be better by `g`, for every `g` below the jitter: the search may never make an improvement
that is smaller. -/
theorem C176_jitter_counterexample (jitter g fmin c : ℝ) (hg : 0 < g) (hj : g < jitter) (hc : 0 < c) :
    mpiAcquisition jitter fmin fmin (2 * jitter / (jitter - g) * (1 / 10 ^ 10)) 1 c
      < mpiAcquisition jitter fmin (fmin - g) 0 1 c := by
  have hd : 0 < jitter - g := by linarith
  have hj0 : 0 < jitter := by linarith
  have hr : 1 < 2 * jitter / (jitter - g) := by
    rw [one_lt_div hd]
    linarith
  have h1 : clipStd (2 * jitter / (jitter - g) * (1 / 10 ^ 10)) = 2 * jitter / (jitter - g) * (1 / 10 ^ 10) := by
    rw [clipStd_eq_max]
    refine max_eq_left ?_
    nlinarith
  simp only [mpiAcquisition, weightedAcq, mpiValue, getQuantiles, mul_one, h1, clipStd_zero]
  rw [div_lt_div_iff_of_pos_right hc, neg_lt_neg_iff]
  refine ncdf_strictMono ?_
  have h3 : (fmin - fmin - jitter) / (2 * jitter / (jitter - g) * (1 / 10 ^ 10))
      = (fmin - (fmin - g) - jitter) / (1 / 10 ^ 10) / 2 := by
    field_simp
    ring
  rw [h3]
  have h4 : (fmin - (fmin - g) - jitter) / (1 / 10 ^ 10) < 0 := div_neg_of_neg_of_pos (by linarith) (by positivity)
  linarith

/-! ## An example: Lipschitz bounds -/

/-- An error of the acquisition that is small enough for `w = 1` and `w' = 2`. -/
noncomputable def exError : ℝ := (ncdf (-1) - ncdf (-2)) / 4

theorem exError_pos : 0 < exError := by
  have : ncdf (-2) < ncdf (-1) := ncdf_strictMono (by norm_num)
  unfold exError
  linarith

/-- The probability of improvement by the jitter `1/100`, up to the error. -/
noncomputable def exMPIEnvs (t : BOState) : EvalEnv :=
  { exEnv with
    f := fun x => .ok (nearRat exError
      (mpiAcquisition (1 / 100) (exBelief t).fmin ((exBelief t).mean x) ((exBelief t).dev x) 1 1))
    oracle := ⟨exStay, exAcq⟩ }

theorem exMPI_probability (t : BOState) : ProbabilityF exError (1 / 100) (exBelief t) (exMPIEnvs t).f := by
  intro x v hv
  simp only [exMPIEnvs, Except.ok.injEq] at hv
  subst hv
  rw [abs_sub_comm]
  exact (nearRat_spec exError_pos _).le

noncomputable def exMPIBO (sp : Space) : BOEnv :=
  { exSearch sp with
    obj := some fun _ x => .ok (exValley x)
    suggest := stdSuggest sp .sequential exMPIEnvs false }

theorem exMPI_calm (sp : Space) : CalmBO sp .sequential false (exMPIBO sp) exMPIEnvs where
  space := rfl
  suggest := rfl
  fit := fun _ _ _ => rfl
  params := fun _ => ⟨_, rfl⟩
  costFit := fun _ => rfl
  interval := by show (2 : Int) ≠ 0; decide
  calm := fun _ => {
    good := ⟨⟨by simp [exMPIEnvs, exEnv], by simp [exMPIEnvs, exEnv], by simp [exMPIEnvs, exEnv]⟩, exStay_good, exAcq_good,
      by simp [exMPIEnvs, exEnv], by simp [exMPIEnvs, exEnv]⟩
    name := by simp [exMPIEnvs, exEnv]
    logic := by simp [exMPIEnvs, exEnv]
    f := fun _ => ⟨_, rfl⟩
    opt := fun _ _ _ => ⟨_, rfl⟩
    thompson := fun _ => ⟨_, rfl⟩
    batchOpt := fun _ _ _ => ⟨_, rfl⟩
    batchThompson := fun _ => ⟨_, rfl⟩
    lp := fun _ => exAcq_good
    lpOpt := fun _ _ _ _ => ⟨_, rfl⟩
    lpThompson := fun _ _ => ⟨_, rfl⟩
    fLP := fun _ _ => ⟨_, rfl⟩
    consts := ⟨_, rfl⟩ }
  samples := by
    intro s n hn
    cases hn
  obj := ⟨_, rfl, fun _ _ _ => ⟨_, rfl⟩⟩

/-- The hypotheses of `C176_probability`, and therefore those of the other theorems, are met by search with Lipschitz bounds; no
deviation is left at the data. -/
example (K : Nat) (q : ℚ) {sp : Space} (h : designSpace exUnitLine none = .ok sp) :
    open Classical in
    (1 - (1 - targetRatio 8 sp.kinds none fun x => exValley x ≤ q) ^ 5) ^ K ≤
      ((Finset.univ.filter fun ω : Draws 8 K 1 5 sp.kinds =>
        ∃ s' r σ x, runOptimization (confBO (exMPIBO sp) sp 5 (drawsOf (fun _ _ => 0) (fun _ => exOracle) ω) exMPIEnvs)
          { maxIter := some (.fin K), maxTime := none, eps := -1 } (K + 1) (boInit [[0]] none .none) = (s', .done .limit) ∧
          s'.numAcq = K ∧ s'.results = some r ∧ Iterates exValley none 1 s' σ x ∧
          JitterBound 1 2 (1 / 100) (fun _ => 0) exBelief σ x K q (exValley [0]) r.fxOpt).card : ℝ) /
        Fintype.card (Draws 8 K 1 5 sp.kinds) := by
  have hk : kindsOf exUnitLine = [.continuous 0 1] := by decide +kernel
  have hkk := space_kinds_eq h
  have hb : sp.hasBandit = false := by
    have : (designSpace exUnitLine none).map Space.hasBandit = .ok false := by decide +kernel
    rw [h] at this
    simpa [Except.map] using this
  exact C176_probability (M := 8) (K := K) (N := 5) h hb (by rw [hk]; simp [Samplable]) (by rw [hk]; simp)
    (by rw [hk]; intro k hk; exact ⟨0, 1, by simpa using hk⟩) (by omega) (fun _ _ => 0) (fun _ => exOracle)
    (fun _ => exOracle_unit) 1 2 exError (1 / 100) zero_le_one (by norm_num)
    (by have := exError_pos; unfold exError at this ⊢; linarith) (fun _ => 0) exBelief exValley
    (fun t ht hne => by rw [hk]; exact exBelief_trusted t ht hne) (fun _ => exMPIEnvs) (fun _ t => exMPI_probability t)
    (fun _ _ => rfl) (fun _ _ k => exStay_descends k _) (fun _ => exMPIBO sp) (fun _ => exMPI_calm sp) (fun _ => rfl)
    { maxIter := some (.fin K), maxTime := none, eps := -1 } rfl rfl rfl (by norm_num) (K + 1) (by omega)
    (boInit [[0]] none .none) (by
      rw [hkk, hk]
      simp [boInit, ObjDomain, ValidObj]) (by left; rfl) (by simp [SoundCost, boInit, costModelInit]) [0] (by simp [boInit]) q

/-- A gain of a millionth is preferred to a possible gain of one. -/
example : mpiAcquisition 0 0 (0 - 1 / 10 ^ 6) 0 1 1 < mpiAcquisition 0 0 0 (1 / 2) 1 1 :=
  (C176_no_jitter_counterexample (1 / 10 ^ 6) 1 2 0 1 (by norm_num) one_pos two_pos one_pos).2.2

end GPyOpt.Props
