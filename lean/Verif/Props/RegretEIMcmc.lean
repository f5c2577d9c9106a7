import Verif.Props.RegretBatchEI
import Verif.Props.Ordering

/-!
# C188: search by integrated expected improvement

`AcquisitionEI_MCMC` sampleMeans the expected improvement over samples of the hyper-parameters (`GPyOpt/acquisitions/EI_mcmc.py:29-39`).
Every term adds the jitter where `EI` subtracts it, which is at most twice the jitter more than the expected improvement.
-/

namespace GPyOpt.Props

open GPyOpt Spec

/-- What one sample of the hyper-parameters predicts at a location (`gpmodel.py:257-277`, `:279-295`). -/
noncomputable def Belief.sample (b : Belief) (x : Vec) : Sample := { m := b.mean x, s := b.dev x, fmin := b.fmin }

/-- The term of one sample is the expected improvement and at most twice the jitter. -/
theorem eiMcmcTerm_near {jitter : ℝ} (hj : 0 ≤ jitter) (b : Belief) (x : Vec) :
    -eiAcquisition jitter b.fmin (b.mean x) (b.dev x) 1 1 ≤ eiMcmcTerm jitter (b.sample x) ∧
    eiMcmcTerm jitter (b.sample x) ≤ -eiAcquisition jitter b.fmin (b.mean x) (b.dev x) 1 1 + 2 * jitter := by
  have hs := clipStd_pos (b.dev x)
  have e : eiMcmcTerm jitter (b.sample x) = -eiAcquisition jitter b.fmin (b.mean x) (b.dev x) 1 1 +
      2 * jitter * ncdf ((b.fmin - b.mean x - jitter) / clipStd (b.dev x)) := by
    simp only [eiMcmcTerm, Belief.sample, getQuantiles, eiAcquisition, weightedAcq, eiValue]
    field_simp
    ring
  have h1 := ncdf_nonneg ((b.fmin - b.mean x - jitter) / clipStd (b.dev x))
  have h2 := ncdf_le_one ((b.fmin - b.mean x - jitter) / clipStd (b.dev x))
  rw [e]
  constructor <;> nlinarith

/-- The mean over the samples. -/
noncomputable def sampleMean (l : List Belief) (g : Belief → ℝ) : ℝ := (l.map g).sum / l.length

theorem le_sampleMean {l : List Belief} (hl : l ≠ []) {g : Belief → ℝ} {c : ℝ} (h : ∀ b ∈ l, c ≤ g b) : c ≤ sampleMean l g := by
  have hpos : (0 : ℝ) < l.length := by exact_mod_cast List.length_pos_iff.2 hl
  rw [sampleMean, le_div_iff₀ hpos]
  have := List.card_nsmul_le_sum (l.map g) c (by simpa using h)
  simpa [mul_comm] using this

theorem sampleMean_add (l : List Belief) (f g : Belief → ℝ) : sampleMean l (fun b => f b + g b) = sampleMean l f + sampleMean l g := by
  rw [sampleMean, sampleMean, sampleMean, List.sum_map_add, add_div]

theorem sampleMean_mul (l : List Belief) (c : ℝ) (g : Belief → ℝ) : sampleMean l (fun b => c * g b) = c * sampleMean l g := by
  rw [sampleMean, sampleMean, List.sum_map_mul_left, mul_div_assoc]

theorem sampleMean_const {l : List Belief} (hl : l ≠ []) (c : ℝ) : sampleMean l (fun _ => c) = c := by
  have hpos : (0 : ℝ) < l.length := by exact_mod_cast List.length_pos_iff.2 hl
  rw [sampleMean]
  simp only [List.map_const', List.sum_replicate, nsmul_eq_mul]
  field_simp

theorem sampleMean_mono {l : List Belief} {f g : Belief → ℝ} (h : ∀ b ∈ l, f b ≤ g b) : sampleMean l f ≤ sampleMean l g :=
  div_le_div_of_nonneg_right (List.sum_le_sum h) (Nat.cast_nonneg _)

/-- The acquisition is the mean of its terms. -/
theorem eiMcmcValue_sampleMean {jitter : ℝ} {l : List Belief} {x : Vec} {v : ℝ}
    (h : eiMcmcValue jitter (l.map fun b => b.sample x) = .ok v) :
    l ≠ [] ∧ v = sampleMean l fun b => eiMcmcTerm jitter (b.sample x) := by
  unfold eiMcmcValue mcmcAverage at h
  split_ifs at h with hl
  simp only [Except.ok.injEq] at h
  refine ⟨by simpa using hl, ?_⟩
  rw [← h, sampleMean, List.length_map, List.sum_eq_foldl, List.foldl_map, List.foldl_map]

/-- Every sample of the hyper-parameters may be trusted, and they share the standardization of the objective. -/
structure AllTrusted (ks : List Kind) (F : Vec → ℚ) (w δ scale : ℝ) (X : Mat) (l : List Belief) : Prop where
  trusted : ∀ b ∈ l, Trusted ks F w δ X b
  scale : ∀ b ∈ l, b.scale = scale

/-- One step in the units of the objective. -/
theorem integrated_units {ks : List Kind} {F : Vec → ℚ} {w δ scale η jitter : ℝ} (hw : 0 ≤ w) (hj : 0 ≤ jitter)
    {X : Mat} {l : List Belief} (hb : AllTrusted ks F w δ scale X l) (hX : ∀ x ∈ X, ObjDomain ks x) {x z : Vec}
    (hx : ObjDomain ks x) (hz : ObjDomain ks z) {vx vz : ℝ} (hvx : eiMcmcValue jitter (l.map fun b => b.sample x) = .ok vx)
    (hvz : eiMcmcValue jitter (l.map fun b => b.sample z) = .ok vz) (hle : -vx ≤ -vz + 2 * η)
    {v y y' : ℚ} (hv : ∀ x ∈ X, v ≤ F x) (hy : ∃ p ∈ X, y = F p) (hy1 : y' ≤ y) (hy2 : y' ≤ F x) :
    (v : ℝ) - F z ≤ scale * (jitter + (1 + improvementRatio w) * (w * δ)) + improvementRatio w *
      ((y - y') + scale * ((w + 1 / 2) * sampleMean l (fun b => clipStd (b.dev x)) + 2 * (η + jitter))) := by
  obtain ⟨hl, rfl⟩ := eiMcmcValue_sampleMean hvx
  obtain ⟨-, rfl⟩ := eiMcmcValue_sampleMean hvz
  have hR := improvementRatio_ge hw
  obtain ⟨b0, hb0⟩ := List.exists_mem_of_ne_nil l hl
  have hsc : 0 < scale := hb.scale b0 hb0 ▸ (hb.trusted b0 hb0).scale
  have h1 : ∀ b ∈ l, (v : ℝ) - F z ≤ scale * (jitter + (1 + improvementRatio w) * (w * δ)) + improvementRatio w * (y - y') +
      improvementRatio w * scale * ((w + 1 / 2) * clipStd (b.dev x) +
        (eiMcmcTerm jitter (b.sample z) + -1 * eiMcmcTerm jitter (b.sample x) + 2 * jitter)) := by
    intro b hbl
    have e1 := improvement_step (jitter := jitter) (η := (eiAcquisition jitter b.fmin (b.mean x) (b.dev x) 1 1
      - eiAcquisition jitter b.fmin (b.mean z) (b.dev z) 1 1) / 2) hw (hb.trusted b hbl) hx hz (by linarith)
    have e2 := improvement_new hR hw hj (hb.trusted b hbl) hX e1 hv hy hy1 hy2
    rw [hb.scale b hbl] at e2
    have e3 := (eiMcmcTerm_near hj b z).1
    have e4 := (eiMcmcTerm_near hj b x).2
    have e5 : (w + 1 / 2) * clipStd (b.dev x) + 2 * ((eiAcquisition jitter b.fmin (b.mean x) (b.dev x) 1 1
        - eiAcquisition jitter b.fmin (b.mean z) (b.dev z) 1 1) / 2) ≤ (w + 1 / 2) * clipStd (b.dev x) +
        (eiMcmcTerm jitter (b.sample z) + -1 * eiMcmcTerm jitter (b.sample x) + 2 * jitter) := by linarith
    have e6 := mul_le_mul_of_nonneg_left e5 (mul_nonneg (by linarith : 0 ≤ improvementRatio w) hsc.le)
    linarith
  have h2 := le_sampleMean hl h1
  rw [sampleMean_add, sampleMean_const hl, sampleMean_mul, sampleMean_add, sampleMean_mul, sampleMean_add, sampleMean_add, sampleMean_const hl,
    sampleMean_mul] at h2
  refine h2.trans ?_
  have h3 : improvementRatio w * scale * ((w + 1 / 2) * sampleMean l (fun b => clipStd (b.dev x)) +
      (sampleMean l (fun b => eiMcmcTerm jitter (b.sample z)) + -1 * sampleMean l (fun b => eiMcmcTerm jitter (b.sample x)) +
        2 * jitter)) ≤
      improvementRatio w * scale * ((w + 1 / 2) * sampleMean l (fun b => clipStd (b.dev x)) + 2 * (η + jitter)) :=
    mul_le_mul_of_nonneg_left (by linarith) (mul_nonneg (by linarith) hsc.le)
  linarith

/-- The same against a sample that is known. -/
theorem integrated_known {ks : List Kind} {F : Vec → ℚ} {w δ scale η jitter : ℝ} (hw : 0 ≤ w) (hj : 0 ≤ jitter) (hη : 0 ≤ η)
    {X : Mat} {l : List Belief} (hl : l ≠ []) (hb : AllTrusted ks F w δ scale X l) (hX : ∀ x ∈ X, ObjDomain ks x) {x z : Vec}
    (hz : z ∈ X) {v y y' : ℚ} (hv : ∀ x ∈ X, v ≤ F x) (hy : ∃ p ∈ X, y = F p) (hy1 : y' ≤ y) (hy2 : y' ≤ F x) :
    (v : ℝ) - F z ≤ scale * (jitter + (1 + improvementRatio w) * (w * δ)) + improvementRatio w *
      ((y - y') + scale * ((w + 1 / 2) * sampleMean l (fun b => clipStd (b.dev x)) + 2 * (η + jitter))) := by
  have h1 : ∀ b ∈ l, (v : ℝ) - F z ≤ scale * (jitter + (1 + improvementRatio w) * (w * δ)) + improvementRatio w *
      ((y - y') + scale * (2 * (η + jitter))) + improvementRatio w * scale * (w + 1 / 2) * clipStd (b.dev x) := by
    intro b hbl
    have e := improvement_units (η := η + jitter) (x := x) (improvementRatio_ge hw) hw hj (by linarith) (hb.trusted b hbl) hX
      (.inl hz) hv (hv z) hy hy1 hy2
    rw [hb.scale b hbl] at e
    linarith
  have h2 := le_sampleMean hl h1
  rw [sampleMean_add, sampleMean_const hl, sampleMean_mul] at h2
  linarith

/-- **C188**, a run: as `C183_ei_run`, for the acquisition `EI_MCMC`, where every sample of the hyper-parameters has intervals that
contain the objective. The deviation is the mean over the samples, and the error is larger by the jitter. -/
theorem C188_run {config : List Desc} {sp : Space} (h : designSpace config none = .ok sp) (hb : sp.hasBandit = false)
    (hs : ∀ k ∈ kindsOf config, Samplable k) (hvar : kindsOf config ≠ []) (hk : AllCont (kindsOf config))
    (ev : Evaluator) (hev : ∀ n, ev ≠ .thompson n) (deDup : Bool) (hgev : GoodEvaluator deDup ev)
    (w η jitter : ℝ) (hw : 0 ≤ w) (hj : 0 ≤ jitter) (hη : 0 ≤ η) (δ scale : BOState → ℝ) (b : BOState → List Belief)
    (F : Vec → ℚ)
    (hcal : ∀ t, t.Y = some (t.X.map F) → t.X ≠ [] → AllTrusted (kindsOf config) F w (δ t) (scale t) t.X (b t))
    (g : BOState → Vec → ℝ) (hval : ∀ t x, eiMcmcValue jitter ((b t).map fun β => β.sample x) = .ok (g t x))
    (envs : BOState → EvalEnv) (henvs : ∀ t, GoodEnv (envs t)) (hlp : ∀ t k, GoodAcq ((envs t).acqLP k))
    (hns : ∀ t n, ev = .random n → n - 1 ≤ (envs t).numSamplesRandom)
    (hf : ∀ t, NearlyOrders (2 * η) (firstEnv ev (envs t)).f fun x => -g t x)
    (hlogic : ∀ t, (envs t).op.anchorLogic = "max_objective")
    (hzero : (∃ n, ev = .random n) → deDup = true → ∀ x, ObjDomain (kindsOf config) x → ∃ v ∈ x, v ≠ 0) (env : BOEnv)
    (hsug : env.suggest = stdSuggest sp ev envs deDup) (hobj : env.obj = some fun _ x => .ok (F x))
    (a : RunArgs) (hg : ValidContext sp a.context)
    (hopt : ∀ t c, contextManager sp a.context = .ok c → ∀ k,
      Descends ((firstEnv ev (envs t)).oracle.acq.opt k) c.noncontextBounds)
    (fuel : Nat) (s s' : BOState) (why : Stop) (hX : ∀ x ∈ s.X, ObjDomain (kindsOf config) x)
    (hY : s.Y = none ∨ s.Y = some (s.X.map F)) (hrun : runOptimization env a fuel s = (s', .done why))
    (x0 : Vec) (hx0 : x0 ∈ s.X) :
    ∃ (r : Results) (σ : Nat → BOState) (B : Nat → Mat) (x : Nat → Vec) (Z : Nat → Mat), s'.results = some r ∧
      BatchIterates F 0 a.context s.X s' σ B ∧
      (∀ k < s'.numAcq, (B k).head? = some (x k) ∧ Sampled config sp a.context (firstEnv ev (envs (σ k))).oracle.acq.design
        (envs (σ k)).op.numSamplesObjective (Z k)) ∧
      ∀ q : ℚ, (∀ k < s'.numAcq, ∃ z ∈ Z k, F z ≤ q) →
        s'.numAcq * ((r.fxOpt : ℝ) - q) ≤
          ∑ k ∈ Finset.range s'.numAcq, scale (σ k) * (jitter + (1 + improvementRatio w) * (w * δ (σ k))) +
          improvementRatio w * ((F x0 - r.fxOpt) + ∑ k ∈ Finset.range s'.numAcq,
            scale (σ k) * ((w + 1 / 2) * sampleMean (b (σ k)) (fun β => clipStd (β.dev (x k))) + 2 * (η + jitter))) := by
  have hfirst : ∀ t, GoodAcq (firstEnv ev (envs t)).oracle.acq := by
    intro t
    cases ev with
    | localPenalization n => exact hlp t 0
    | sequential => exact (henvs t).acq
    | random n => exact (henvs t).acq
    | thompson n => exact (henvs t).acq
  obtain ⟨r, σ, B, x, Z, r1, r2, r3, r4⟩ := run_batches (ks := kindsOf config) (F := F) (env := env)
    (P := fun t x Z => Sampled config sp a.context (firstEnv ev (envs t)).oracle.acq.design (envs t).op.numSamplesObjective Z ∧
      AllTrusted (kindsOf config) F w (δ t) (scale t) t.X (b t) ∧ ObjDomain (kindsOf config) x ∧
      ∀ z ∈ Z, z ∈ t.X ∨ (ObjDomain (kindsOf config) z ∧ -g t x ≤ -g t z + 2 * η)) hobj a
    (fun t m t1 t2 t3 t4 => by
      rw [hsug] at t4
      unfold stdSuggest at t4
      rw [t1] at t4
      refine ⟨fun y hy => (suggestions_in_domain h hb hs hvar hg (henvs t) (hlp t) hgev (hns t) t4 y hy).1, ?_⟩
      obtain ⟨x, rest, Z, e1, e2, e3, -, e4⟩ := least_first h hb hs hvar hk a.context hg ev hev (envs t) (henvs t).op (hfirst t)
        (hlogic t) (hopt t) deDup hzero t.X m t4
      refine ⟨x, rest, Z, e1, e3, hcal t t2 t3, e2, fun z hz => ?_⟩
      obtain ⟨hz1, hz2⟩ := e4 z hz
      refine hz2.imp id fun ⟨u, v, hu, hv, huv⟩ => ?_
      exact ⟨hz1, hf t _ _ _ _ hu hv huv⟩)
    (List.ne_nil_of_mem hx0) hX hY hrun
  refine ⟨r, σ, B, x, Z, r1, r3, fun k hk => ⟨(r4 k hk).1, (r4 k hk).2.2.1⟩, fun q hq => ?_⟩
  obtain ⟨b1, b2, b3⟩ := batches_best r3 (fun k hk => (r4 k hk).1) r2 hx0
  have hR := improvementRatio_ge hw
  refine steps_total (by linarith) b1 (fun k hk => (b2 k hk).1) fun k hk => ?_
  obtain ⟨c1, c2, c3, c4, c5⟩ := (r4 k hk).2
  obtain ⟨z, hz, hzq⟩ := hq k hk
  have hq' : (F z : ℝ) ≤ q := by exact_mod_cast hzq
  have hl := (eiMcmcValue_sampleMean (hval (σ k) (x k))).1
  rcases c5 z hz with hzX | ⟨hzd, hzg⟩
  · have := integrated_known (x := x k) (y' := bestAfter F (F x0) x (k + 1)) hw hj hη hl c3 c1 hzX (b2 k hk).2 (b3 k hk)
      (min_le_left _ _) (min_le_right _ _)
    linarith
  · have := integrated_units (y' := bestAfter F (F x0) x (k + 1)) hw hj c3 c1 c4 hzd (hval _ _) (hval _ _) hzg (b2 k hk).2
      (b3 k hk) (min_le_left _ _) (min_le_right _ _)
    linarith

/-! ## An example: two Lipschitz bounds -/

theorem eiMcmcValue_ok (jitter : ℝ) {l : List Belief} (hl : l ≠ []) (x : Vec) :
    eiMcmcValue jitter (l.map fun b => b.sample x) = .ok (sampleMean l fun b => eiMcmcTerm jitter (b.sample x)) := by
  unfold eiMcmcValue mcmcAverage
  rw [if_neg (by simpa using hl), sampleMean, List.length_map, List.sum_eq_foldl, List.foldl_map, List.foldl_map]

/-- Two samples: Lipschitz bounds, and twice as wide. -/
noncomputable def exBeliefs (t : BOState) : List Belief :=
  [exBelief t, { exBelief t with dev := fun x => 2 * (exBelief t).dev x }]

theorem exBeliefs_trusted (t : BOState) (ht : t.Y = some (t.X.map exValley)) (hne : t.X ≠ []) :
    AllTrusted [.continuous 0 1] exValley 1 0 (exBelief t).scale t.X (exBeliefs t) := by
  have h := exBelief_trusted t ht hne
  refine ⟨fun b hb => ?_, fun b hb => ?_⟩
  · simp only [exBeliefs, List.mem_cons, List.not_mem_nil, or_false] at hb
    rcases hb with rfl | rfl
    · exact h
    · refine ⟨h.scale, fun x hx => ?_, h.incumbent, h.least, fun x hx => ?_⟩
      · have h1 := h.covers x hx
        have h2 := (abs_nonneg _).trans h1
        show |(exBelief t).std (exValley x) - (exBelief t).mean x| ≤ 1 * (2 * (exBelief t).dev x)
        linarith
      · have := h.sure x hx
        show 2 * (exBelief t).dev x ≤ 0
        linarith
  · simp only [exBeliefs, List.mem_cons, List.not_mem_nil, or_false] at hb
    rcases hb with rfl | rfl <;> rfl

/-- The acquisition. -/
noncomputable def exIntegrated (t : BOState) (x : Vec) : ℝ :=
  sampleMean (exBeliefs t) fun b => eiMcmcTerm (1 / 100) (b.sample x)

/-- The acquisition is computed up to `1 / 1000`. -/
noncomputable def exIntegratedEnvs (t : BOState) : EvalEnv :=
  { exEnv with
    f := fun x => .ok (nearRat (1 / 1000) (-exIntegrated t x))
    oracle := ⟨exStay, exAcq⟩ }

/-- Batches of `n`, completed at random. -/
noncomputable def exIntegratedBO (n : Nat) (sp : Space) : BOEnv :=
  { exSearch sp with
    obj := some fun _ x => .ok (exValley x)
    suggest := stdSuggest sp (.random n) exIntegratedEnvs false }

/-- The hypotheses of `C188_run` are met by search with Lipschitz bounds and batches of two. -/
example {sp : Space} (h : designSpace exUnitLine none = .ok sp) (a : RunArgs) (ha : a.context = none) (fuel : Nat)
    (s' : BOState) (why : Stop) (hrun : runOptimization (exIntegratedBO 2 sp) a fuel (boInit [[0]] none .none) = (s', .done why)) :
    ∃ (r : Results) (σ : Nat → BOState) (B : Nat → Mat) (x : Nat → Vec) (Z : Nat → Mat), s'.results = some r ∧
      BatchIterates exValley 0 a.context [[0]] s' σ B ∧
      ∀ q : ℚ, (∀ k < s'.numAcq, ∃ z ∈ Z k, exValley z ≤ q) →
        s'.numAcq * ((r.fxOpt : ℝ) - q) ≤
          ∑ k ∈ Finset.range s'.numAcq, (exBelief (σ k)).scale * (1 / 100 + (1 + improvementRatio 1) * (1 * 0)) +
          improvementRatio 1 * ((exValley [0] - r.fxOpt) + ∑ k ∈ Finset.range s'.numAcq, (exBelief (σ k)).scale *
            ((1 + 1 / 2) * sampleMean (exBeliefs (σ k)) (fun β => clipStd (β.dev (x k))) + 2 * (1 / 1000 + 1 / 100))) := by
  have hk : kindsOf exUnitLine = [.continuous 0 1] := by decide +kernel
  have hb : sp.hasBandit = false := by
    have : (designSpace exUnitLine none).map Space.hasBandit = .ok false := by decide +kernel
    rw [h] at this
    simpa [Except.map] using this
  obtain ⟨r, σ, B, x, Z, h1, h2, -, h4⟩ := C188_run h hb (by rw [hk]; simp [Samplable]) (by rw [hk]; simp)
    (by rw [hk]; intro k hk; exact ⟨0, 1, by simpa using hk⟩) (.random 2) (by simp) false (by simp [GoodEvaluator])
    1 (1 / 1000) (1 / 100) zero_le_one (by norm_num) (by norm_num) (fun _ => 0) (fun t => (exBelief t).scale) exBeliefs exValley
    (fun t ht hne => by rw [hk]; exact exBeliefs_trusted t ht hne) exIntegrated
    (fun t x => eiMcmcValue_ok _ (by simp [exBeliefs]) x) exIntegratedEnvs
    (fun _ => ⟨⟨by simp [exIntegratedEnvs, exEnv], by simp [exIntegratedEnvs, exEnv], by simp [exIntegratedEnvs, exEnv]⟩, exStay_good, exAcq_good,
      by simp [exIntegratedEnvs, exEnv], by simp [exIntegratedEnvs, exEnv]⟩)
    (fun _ _ => exAcq_good) (fun t n hn => by cases hn; simp [exIntegratedEnvs, exEnv])
    (fun t => nearlyOrders_of_near fun x v hv => by
      simp only [firstEnv, exIntegratedEnvs, Except.ok.injEq] at hv
      subst hv
      rw [abs_sub_comm]
      exact (nearRat_spec (by norm_num) _).le) (fun _ => rfl) (by simp) (exIntegratedBO 2 sp) rfl rfl a
    (by simp [ValidContext, ha]) (fun t c _ k => exStay_descends k _) fuel _ s' why (by
      rw [hk]
      simp [boInit, ObjDomain, ValidObj]) (.inl rfl) hrun [0] (by simp [boInit])
  exact ⟨r, σ, B, x, Z, h1, h2, h4⟩

end GPyOpt.Props
