import Verif.Lemmas.Gauss
import Verif.Spec.Acquisition

/-!
# Acquisition values and gradients (C57–C61, C80)
-/

namespace GPyOpt.Props

open MeasureTheory ProbabilityTheory Filter
open scoped Topology
open GPyOpt.Spec

variable {E : Type*} [NormedAddCommGroup E] [NormedSpace ℝ E]

theorem clipStd_eq_max (s : ℝ) : clipStd s = max s (1 / 10 ^ 10) := by
  unfold clipStd
  split
  · rw [max_eq_right (by linarith)]
  · rw [max_eq_left (by linarith)]

theorem clipStd_pos (s : ℝ) : 0 < clipStd s := by
  rw [clipStd_eq_max]
  exact lt_of_lt_of_le (by norm_num) (le_max_right _ _)

theorem clipStd_of_lt {s : ℝ} (h : 1 / 10 ^ 10 < s) : clipStd s = s := by
  rw [clipStd_eq_max, max_eq_left h.le]

/-- **C57.** For every mean, deviation, incumbent and jitter the value of the EI acquisition is the expected
improvement over `fmin - jitter` of a normal observation with that mean and the deviation (raised to `1e-10`);
it is positive. -/
theorem C57_expected_improvement (jitter fmin m s : ℝ) :
    eiValue jitter fmin m s = expectedImprovement m (max s (1 / 10 ^ 10)) (fmin - jitter)
      ∧ 0 < eiValue jitter fmin m s := by
  rw [expectedImprovement, normalLaw, ← clipStd_eq_max, gaussian_improvement _ _ _ (clipStd_pos s)]
  simp only [eiValue, getQuantiles, show fmin - jitter - m = fmin - m - jitter by ring, true_and]
  exact mul_pos (clipStd_pos s) (std_improvement_pos _)

/-- **C57.** The value of the MPI acquisition is the probability that a normal observation with that mean and
deviation (raised to `1e-10`) is at most `fmin - jitter`; it lies strictly between 0 and 1. -/
theorem C57_probability_of_improvement (jitter fmin m s : ℝ) :
    mpiValue jitter fmin m s = probImprovement m (max s (1 / 10 ^ 10)) (fmin - jitter)
      ∧ 0 < mpiValue jitter fmin m s ∧ mpiValue jitter fmin m s < 1 := by
  rw [probImprovement, normalLaw, ← clipStd_eq_max, gaussian_prob _ _ _ (clipStd_pos s)]
  simp only [mpiValue, getQuantiles, show fmin - jitter - m = fmin - m - jitter by ring, true_and]
  exact ⟨ncdf_pos _, ncdf_lt_one _⟩

/-! ## Derivatives -/

theorem quantile_hasFDerivAt (jitter fmin : ℝ) {m s : E → ℝ} {x : E} {dm ds : E →L[ℝ] ℝ}
    (hm : HasFDerivAt m dm x) (hs : HasFDerivAt s ds x) (h0 : s x ≠ 0) :
    ∃ L : E →L[ℝ] ℝ, HasFDerivAt (fun y => (fmin - m y - jitter) / s y) L x ∧
      ∀ v, s x * L v = -(dm v + (fmin - m x - jitter) / s x * ds v) := by
  have h1 : HasFDerivAt (fun y => fmin - m y - jitter) (-dm) x := by
    have := (hm.const_sub fmin).sub_const jitter
    simpa using this
  have h2 : HasFDerivAt (fun y => (s y)⁻¹) (-(s x ^ 2)⁻¹ • ds) x :=
    (hasDerivAt_inv h0).comp_hasFDerivAt x hs
  refine ⟨_, (h1.mul h2).congr_of_eventuallyEq (Eventually.of_forall fun y => div_eq_mul_inv _ _), ?_⟩
  intro v
  simp only [add_apply, smul_apply, neg_apply, smul_eq_mul]
  field_simp
  ring

omit [NormedSpace ℝ E] in
theorem clip_eventually {s : E → ℝ} {x : E} (hs : ContinuousAt s x) (h : 1 / 10 ^ 10 < s x) :
    ∀ᶠ y in 𝓝 x, clipStd (s y) = s y := by
  filter_upwards [hs.eventually_const_lt h] with y hy
  exact clipStd_of_lt hy

theorem ne_zero_of_clip {s : ℝ} (h : 1 / 10 ^ 10 < s) : s ≠ 0 := by
  have : (0 : ℝ) < 1 / 10 ^ 10 := by norm_num
  exact (this.trans h).ne'

/-- The derivative of `(fmin - m + a) Φ(u) + s φ(u)`. -/
theorem improvement_hasFDerivAt (a jitter fmin : ℝ) {m s : E → ℝ} {x : E} {dm ds : E →L[ℝ] ℝ}
    (hm : HasFDerivAt m dm x) (hs : HasFDerivAt s ds x) (hclip : 1 / 10 ^ 10 < s x) :
    ∃ L : E →L[ℝ] ℝ, HasFDerivAt (fun y => (fmin - m y + a) * (getQuantiles jitter fmin (m y) (s y)).Phi
        + (getQuantiles jitter fmin (m y) (s y)).s * (getQuantiles jitter fmin (m y) (s y)).phi) L x ∧
      ∀ v, L v = ds v * (getQuantiles jitter fmin (m x) (s x)).phi
        - (getQuantiles jitter fmin (m x) (s x)).Phi * dm v
        - (a + jitter) * (getQuantiles jitter fmin (m x) (s x)).phi / s x
          * (dm v + (getQuantiles jitter fmin (m x) (s x)).u * ds v) := by
  have h0 := ne_zero_of_clip hclip
  obtain ⟨Lu, hu, hLu⟩ := quantile_hasFDerivAt jitter fmin hm hs h0
  have hPhi := (hasDerivAt_ncdf _).comp_hasFDerivAt x hu
  have hphi := (hasDerivAt_npdf _).comp_hasFDerivAt x hu
  have h1 := (hm.const_sub fmin).add_const a
  have hall := (h1.mul hPhi).add (hs.mul hphi)
  refine ⟨_, hall.congr_of_eventuallyEq ?_, ?_⟩
  · filter_upwards [clip_eventually hs.continuousAt hclip] with y hy
    simp only [getQuantiles, hy]
    rfl
  · intro v
    have hv := hLu v
    simp only [add_apply, smul_apply, neg_apply, smul_eq_mul, getQuantiles, clipStd_of_lt hclip, Function.comp]
    have e : fmin - m x = jitter + s x * ((fmin - m x - jitter) / s x) := by field_simp; ring
    generalize (fmin - m x - jitter) / s x = u at hv e ⊢
    rw [e]
    have hL : Lu v = -(dm v + u * ds v) / s x := by field_simp; linarith
    rw [hL]
    field_simp
    ring

theorem eiValue_eq (jitter fmin m s : ℝ) : eiValue jitter fmin m s =
    (fmin - m + -jitter) * (getQuantiles jitter fmin m s).Phi
      + (getQuantiles jitter fmin m s).s * (getQuantiles jitter fmin m s).phi := by
  have h := (clipStd_pos s).ne'
  simp only [eiValue, getQuantiles]
  field_simp
  ring

/-- **C58.** At a point where the deviation exceeds the clipping threshold `1e-10`, the gradient reported by EI
is the derivative of the value reported by EI, whatever the differentiable mean and deviation; the value reported
with the gradient is the value reported alone. -/
theorem C58_ei_gradient (jitter fmin : ℝ) (m s : E → ℝ) (x : E) (dm ds : E →L[ℝ] ℝ)
    (hm : HasFDerivAt m dm x) (hs : HasFDerivAt s ds x) (hclip : 1 / 10 ^ 10 < s x) :
    IsGradientAt (fun y => eiValue jitter fmin (m y) (s y)) x
        (fun v => (eiWithGrad jitter fmin (m x) (s x) (dm v) (ds v)).2)
      ∧ ∀ v, (eiWithGrad jitter fmin (m x) (s x) (dm v) (ds v)).1 = eiValue jitter fmin (m x) (s x) := by
  refine ⟨?_, fun v => rfl⟩
  obtain ⟨L, hL, hLv⟩ := improvement_hasFDerivAt (-jitter) jitter fmin hm hs hclip
  refine ⟨L, ?_, fun v => ?_⟩
  · simp only [eiValue_eq]
    exact hL
  · rw [hLv v]
    simp [eiWithGrad]

/-- **C59.** The gradient reported by MPI is the derivative of the value reported by MPI. -/
theorem C59_mpi_gradient (jitter fmin : ℝ) (m s : E → ℝ) (x : E) (dm ds : E →L[ℝ] ℝ)
    (hm : HasFDerivAt m dm x) (hs : HasFDerivAt s ds x) (hclip : 1 / 10 ^ 10 < s x) :
    IsGradientAt (fun y => mpiValue jitter fmin (m y) (s y)) x
        (fun v => (mpiWithGrad jitter fmin (m x) (s x) (dm v) (ds v)).2)
      ∧ ∀ v, (mpiWithGrad jitter fmin (m x) (s x) (dm v) (ds v)).1 = mpiValue jitter fmin (m x) (s x) := by
  refine ⟨?_, fun v => rfl⟩
  have h0 := ne_zero_of_clip hclip
  obtain ⟨Lu, hu, hLu⟩ := quantile_hasFDerivAt jitter fmin hm hs h0
  have hPhi := (hasDerivAt_ncdf _).comp_hasFDerivAt x hu
  refine ⟨_, hPhi.congr_of_eventuallyEq ?_, ?_⟩
  · filter_upwards [clip_eventually hs.continuousAt hclip] with y hy
    simp only [mpiValue, getQuantiles, hy]
    rfl
  · intro v
    have hv := hLu v
    simp only [smul_apply, smul_eq_mul, mpiWithGrad, getQuantiles, clipStd_of_lt hclip]
    generalize (fmin - m x - jitter) / s x = u at hv ⊢
    have hL : Lu v = -(dm v + u * ds v) / s x := by field_simp; linarith
    rw [hL]
    field_simp

/-- **C59.** The gradient reported by LCB is the derivative of the value reported by LCB. -/
theorem C59_lcb_gradient (w : ℝ) (m s : E → ℝ) (x : E) (dm ds : E →L[ℝ] ℝ)
    (hm : HasFDerivAt m dm x) (hs : HasFDerivAt s ds x) :
    IsGradientAt (fun y => lcbValue w (m y) (s y)) x (fun v => (lcbWithGrad w (m x) (s x) (dm v) (ds v)).2)
      ∧ ∀ v, (lcbWithGrad w (m x) (s x) (dm v) (ds v)).1 = lcbValue w (m x) (s x) := by
  refine ⟨⟨_, hm.neg.add (hs.const_mul w), fun v => ?_⟩, fun v => rfl⟩
  simp [lcbWithGrad]

/-- In the region where the deviation is clipped the reported EI gradient is wrong unless the deviation is
stationary: the value no longer depends on the deviation, the gradient still does. -/
theorem C58_clipped_counterexample (jitter fmin : ℝ) (m s : E → ℝ) (x v : E) (dm ds : E →L[ℝ] ℝ)
    (hm : HasFDerivAt m dm x) (hs : HasFDerivAt s ds x) (hclip : s x < 1 / 10 ^ 10) (hv : ds v ≠ 0) :
    ¬ IsGradientAt (fun y => eiValue jitter fmin (m y) (s y)) x
        (fun v => (eiWithGrad jitter fmin (m x) (s x) (dm v) (ds v)).2) := by
  rintro ⟨L, hL, hLv⟩
  -- near `x` the value is the one of the constant deviation `1e-10`
  have hev : ∀ᶠ y in 𝓝 x, clipStd (s y) = 1 / 10 ^ 10 := by
    filter_upwards [hs.continuousAt.eventually_lt_const hclip] with y hy
    simp only [clipStd, if_pos hy]
  have h0 : (1 / 10 ^ 10 : ℝ) ≠ 0 := by norm_num
  obtain ⟨Lu, hu, hLu⟩ := quantile_hasFDerivAt jitter fmin hm
    (hasFDerivAt_const (1 / 10 ^ 10 : ℝ) x) h0
  have hPhi := (hasDerivAt_ncdf _).comp_hasFDerivAt x hu
  have hphi := (hasDerivAt_npdf _).comp_hasFDerivAt x hu
  have hall := ((hu.mul hPhi).add hphi).const_mul (1 / 10 ^ 10 : ℝ)
  have hL2 := hall.congr_of_eventuallyEq (f₁ := fun y => eiValue jitter fmin (m y) (s y)) (by
    filter_upwards [hev] with y hy
    simp only [eiValue, getQuantiles, hy]
    rfl)
  have e := congrArg (fun T => T v) (hL.unique hL2)
  have hx : clipStd (s x) = 1 / 10 ^ 10 := by simp only [clipStd, if_pos hclip]
  have hv' := hLu v
  simp only [hLv, eiWithGrad, getQuantiles, hx, add_apply, smul_apply, smul_eq_mul, Function.comp,
    zero_apply, mul_zero, add_zero] at e hv'
  generalize (fmin - m x - jitter) / (1 / 10 ^ 10) = u at *
  have : ds v * npdf u = 0 := by
    linear_combination e + (ncdf u) * hv'
  rcases mul_eq_zero.1 this with h | h
  · exact hv h
  · exact (npdf_pos u).ne' h

/-! ## The wrapper with constraints and cost -/

/-- **C60.** The value and gradient of `acquisition_function_withGradients`: the value is the one of
`acquisition_function`, and where the indicator of the constraints is locally constant and the cost is not zero
the gradient is its derivative, for every differentiable acquisition and cost. -/
theorem C60_weighted_gradient (f c ind : E → ℝ) (x : E) (df dc : E →L[ℝ] ℝ)
    (hf : HasFDerivAt f df x) (hc : HasFDerivAt c dc x) (hc0 : c x ≠ 0) (hind : ∀ᶠ y in 𝓝 x, ind y = ind x) :
    IsGradientAt (fun y => weightedAcq (f y) (ind y) (c y)) x
        (fun v => (weightedAcqGrad (f x) (df v) (ind x) (c x) (dc v)).2)
      ∧ ∀ v, (weightedAcqGrad (f x) (df v) (ind x) (c x) (dc v)).1 = weightedAcq (f x) (ind x) (c x) := by
  constructor
  · have h2 : HasFDerivAt (fun y => (c y)⁻¹) (-(c x ^ 2)⁻¹ • dc) x :=
      (hasDerivAt_inv hc0).comp_hasFDerivAt x hc
    refine ⟨_, ((hf.mul h2).const_mul (-(ind x))).congr_of_eventuallyEq ?_, ?_⟩
    · filter_upwards [hind] with y hy
      simp only [weightedAcq, hy, Pi.mul_apply]
      ring
    · intro v
      simp only [weightedAcqGrad, add_apply, smul_apply, smul_eq_mul]
      field_simp
      ring
  · intro v
    simp only [weightedAcqGrad, weightedAcq]
    ring

/-! ## Integrated acquisitions -/

/-- Posterior of one hyper-parameter sample as functions of the location. -/
structure PostSample (E : Type*) where
  m : E → ℝ
  s : E → ℝ
  fmin : ℝ

/-- Derivatives of the posterior of one sample at a location. -/
structure SampleDeriv (E : Type*) [NormedAddCommGroup E] [NormedSpace ℝ E] where
  post : PostSample E
  dm : E →L[ℝ] ℝ
  ds : E →L[ℝ] ℝ

/-- What the MCMC model reports at `x`, in direction `v`. -/
def SampleDeriv.at (p : SampleDeriv E) (x v : E) : Sample :=
  { m := p.post.m x, s := p.post.s x, fmin := p.post.fmin, dm := p.dm v, ds := p.ds v }

/-- The reported derivatives are right at `x` and the deviation is above the clipping threshold. -/
def SampleDeriv.Ok (p : SampleDeriv E) (x : E) : Prop :=
  HasFDerivAt p.post.m p.dm x ∧ HasFDerivAt p.post.s p.ds x ∧ 1 / 10 ^ 10 < p.post.s x

theorem foldl_add_eq_sum {α : Type*} (f : α → ℝ) (l : List α) (a : ℝ) :
    l.foldl (fun acc x => acc + f x) a = a + (l.map f).sum := by
  induction l generalizing a with
  | nil => simp
  | cons x xs ih => rw [List.foldl_cons, ih, List.map_cons, List.sum_cons]; ring

theorem mcmcAverage_eq (term : Sample → ℝ) (l : List Sample) (h : l ≠ []) :
    mcmcAverage term l = .ok ((l.map term).sum / l.length) := by
  rw [mcmcAverage, if_neg h, foldl_add_eq_sum, zero_add]

theorem foldl_pair_eq_sum {α : Type*} (f : α → ℝ × ℝ) (l : List α) (a : ℝ × ℝ) :
    l.foldl (fun acc y => (acc.1 + (f y).1, acc.2 + (f y).2)) a
      = (a.1 + (l.map fun x => (f x).1).sum, a.2 + (l.map fun x => (f x).2).sum) := by
  induction l generalizing a with
  | nil => simp
  | cons x xs ih =>
    rw [List.foldl_cons, ih]
    simp only [List.map_cons, List.sum_cons]
    ext <;> ring

theorem mcmcAverageGrad_eq (term : Sample → ℝ × ℝ) (l : List Sample) (h : l ≠ []) :
    mcmcAverageGrad term l
      = .ok ((l.map fun x => (term x).1).sum / l.length, (l.map fun x => (term x).2).sum / l.length) := by
  cases l with
  | nil => exact absurd rfl h
  | cons x xs =>
    simp only [mcmcAverageGrad, foldl_pair_eq_sum, List.map_cons, List.sum_cons]

theorem isGradientAt_sum {α : Type*} (l : List α) (f : α → E → ℝ) (g : α → E → ℝ) (x : E)
    (h : ∀ a ∈ l, IsGradientAt (f a) x (g a)) :
    IsGradientAt (fun y => (l.map fun a => f a y).sum) x (fun v => (l.map fun a => g a v).sum) := by
  induction l with
  | nil => exact ⟨0, by simpa using hasFDerivAt_const (0 : ℝ) x, fun v => by simp⟩
  | cons a l ih =>
    obtain ⟨L1, h1, e1⟩ := h a (by simp)
    obtain ⟨L2, h2, e2⟩ := ih fun b hb => h b (by simp [hb])
    refine ⟨L1 + L2, ?_, fun v => ?_⟩
    · simp only [List.map_cons, List.sum_cons]
      exact h1.add h2
    · simp only [List.map_cons, List.sum_cons, add_apply, e1, e2]

theorem isGradientAt_average {α : Type*} (l : List α) (f : α → E → ℝ) (g : α → E → ℝ) (x : E)
    (h : ∀ a ∈ l, IsGradientAt (f a) x (g a)) :
    IsGradientAt (fun y => (l.map fun a => f a y).sum / l.length) x
      (fun v => (l.map fun a => g a v).sum / l.length) := by
  obtain ⟨L, hL, e⟩ := isGradientAt_sum l f g x h
  refine ⟨(l.length : ℝ)⁻¹ • L, ?_, fun v => ?_⟩
  · simp only [div_eq_inv_mul]
    exact hL.const_mul _
  · simp only [smul_apply, smul_eq_mul, e, div_eq_inv_mul]

/-- The average of the acquisition `acq` over the posteriors of the samples. -/
noncomputable def average (acq : (fmin m s : ℝ) → ℝ) (l : List (SampleDeriv E)) (y : E) : ℝ :=
  (l.map fun p => acq p.post.fmin (p.post.m y) (p.post.s y)).sum / l.length

/-- An integrated acquisition with values `value` and values with gradients `withGrad` is the average of the
acquisition `acq` over the samples, and its gradient is the derivative of that average. -/
def IsIntegrated (acq : (fmin m s : ℝ) → ℝ) (value : List Sample → Py ℝ)
    (withGrad : List Sample → Py (ℝ × ℝ)) (l : List (SampleDeriv E)) (x : E) : Prop :=
  (∀ y v, value (l.map fun p => p.at y v) = .ok (average acq l y)) ∧
  ∃ g : E → ℝ, IsGradientAt (average acq l) x g ∧
    ∀ v, withGrad (l.map fun p => p.at x v) = .ok (average acq l x, g v)

theorem isIntegrated_of_terms (acq : (fmin m s : ℝ) → ℝ) (term : Sample → ℝ) (termG : Sample → ℝ × ℝ)
    (l : List (SampleDeriv E)) (hne : l ≠ []) (x : E)
    (h1 : ∀ p ∈ l, ∀ y v, term (p.at y v) = acq p.post.fmin (p.post.m y) (p.post.s y))
    (h2 : ∀ p ∈ l, ∀ v, (termG (p.at x v)).1 = acq p.post.fmin (p.post.m x) (p.post.s x))
    (h3 : ∀ p ∈ l, IsGradientAt (fun y => acq p.post.fmin (p.post.m y) (p.post.s y)) x
      fun v => (termG (p.at x v)).2) :
    IsIntegrated acq (mcmcAverage term) (mcmcAverageGrad termG) l x := by
  constructor
  · intro y v
    rw [mcmcAverage_eq _ _ (by simpa using hne), List.map_map, List.length_map, average]
    congr 3
    exact List.map_congr_left fun p hp => h1 p hp y v
  · refine ⟨_, isGradientAt_average l _ _ x h3, fun v => ?_⟩
    rw [mcmcAverageGrad_eq _ _ (by simpa using hne), List.map_map, List.map_map, List.length_map, average]
    congr 3
    congr 1
    exact List.map_congr_left fun p hp => h2 p hp v

/-- **C61.** The integrated MPI is the average of the MPI over the samples, and its gradient is the derivative
of its value. -/
theorem C61_mpi (jitter : ℝ) (l : List (SampleDeriv E)) (hne : l ≠ []) (x : E) (hok : ∀ p ∈ l, p.Ok x) :
    IsIntegrated (fun fmin m s => mpiValue jitter fmin m s) (mpiMcmcValue jitter) (mpiMcmcWithGrad jitter) l x :=
  isIntegrated_of_terms _ _ _ l hne x (fun _ _ _ _ => rfl) (fun _ _ _ => rfl) fun p hp =>
    (C59_mpi_gradient jitter p.post.fmin p.post.m p.post.s x p.dm p.ds (hok p hp).1 (hok p hp).2.1
      (hok p hp).2.2).1

/-- **C61.** The integrated LCB is the average of the LCB over the samples, and its gradient is the derivative
of its value. -/
theorem C61_lcb (w : ℝ) (l : List (SampleDeriv E)) (hne : l ≠ []) (x : E) (hok : ∀ p ∈ l, p.Ok x) :
    IsIntegrated (fun _ m s => lcbValue w m s) (lcbMcmcValue w) (lcbMcmcWithGrad w) l x :=
  isIntegrated_of_terms _ _ _ l hne x (fun _ _ _ _ => rfl) (fun _ _ _ => rfl) fun p hp =>
    (C59_lcb_gradient w p.post.m p.post.s x p.dm p.ds (hok p hp).1 (hok p hp).2.1).1

/-- **C61 (partial).** With jitter zero the integrated EI is the average of the EI over the samples, and its
gradient is the derivative of its value. Missing: the default and every other jitter, for which the statement is
false (`C61_ei_value_counterexample`, `C61_ei_gradient_counterexample`). -/
theorem C61_ei_partial (l : List (SampleDeriv E)) (hne : l ≠ []) (x : E) (hok : ∀ p ∈ l, p.Ok x) :
    IsIntegrated (fun fmin m s => eiValue 0 fmin m s) (eiMcmcValue 0) (eiMcmcWithGrad 0) l x := by
  have e : ∀ q : Sample, eiMcmcTerm 0 q = eiValue 0 q.fmin q.m q.s := by
    intro q
    rw [eiValue_eq]
    simp [eiMcmcTerm]
  exact isIntegrated_of_terms _ _ _ l hne x (fun _ _ _ _ => e _) (fun _ _ _ => e _) fun p hp =>
    (C58_ei_gradient 0 p.post.fmin p.post.m p.post.s x p.dm p.ds (hok p hp).1 (hok p hp).2.1
      (hok p hp).2.2).1

/-- For a positive jitter the integrated EI exceeds the average of the EI at every location and for every set of
samples: the jitter enters with the wrong sign, making improvement look larger. -/
theorem C61_ei_value_counterexample (jitter : ℝ) (hj : 0 < jitter) (l : List Sample) (hne : l ≠ []) :
    ∃ r, eiMcmcValue jitter l = .ok r ∧ (l.map fun q => eiValue jitter q.fmin q.m q.s).sum / l.length < r := by
  refine ⟨_, mcmcAverage_eq _ _ hne, ?_⟩
  have hl : (0 : ℝ) < l.length := by exact_mod_cast List.length_pos_iff.2 hne
  refine (div_lt_div_iff_of_pos_right hl).2 ?_
  refine List.sum_lt_sum_of_ne_nil hne _ _ fun q _ => ?_
  rw [eiValue_eq]
  simp only [eiMcmcTerm]
  have := mul_pos hj (ncdf_pos (getQuantiles jitter q.fmin q.m q.s).u)
  simp only [getQuantiles] at this ⊢
  nlinarith

/-- For a nonzero jitter the gradient of the integrated EI of a single sample is not the derivative of its value,
wherever the quantile is not stationary. -/
theorem C61_ei_gradient_counterexample (jitter : ℝ) (hj : jitter ≠ 0) (p : SampleDeriv E) (x v : E)
    (hok : p.Ok x)
    (hv : p.dm v + (p.post.fmin - p.post.m x - jitter) / p.post.s x * p.ds v ≠ 0) :
    ¬ IsGradientAt (fun y => eiMcmcTerm jitter (p.at y 0)) x (fun w => (eiMcmcTermGrad jitter (p.at x w)).2) := by
  rintro ⟨L, hL, e⟩
  obtain ⟨L2, hL2, e2⟩ := improvement_hasFDerivAt jitter jitter p.post.fmin hok.1 hok.2.1 hok.2.2
  have := congrArg (fun T => T v) (hL.unique hL2)
  simp only [e, e2, eiMcmcTermGrad, SampleDeriv.at, getQuantiles, clipStd_of_lt hok.2.2] at this
  have h0 := ne_zero_of_clip hok.2.2
  have h1 : (jitter + jitter) * npdf ((p.post.fmin - p.post.m x - jitter) / p.post.s x) / p.post.s x
      * (p.dm v + (p.post.fmin - p.post.m x - jitter) / p.post.s x * p.ds v) = 0 := by linarith
  rcases mul_eq_zero.1 h1 with h | h
  · rcases div_eq_zero_iff.1 h with h | h
    · rcases mul_eq_zero.1 h with h | h
      · exact hj (by linarith)
      · exact (npdf_pos _).ne' h
    · exact h0 h
  · exact hv h

/-! ## Gaussian process models -/

theorem clippedStd_gt (v : ℝ) : 1 / 10 ^ 10 < clippedStd v := by
  have h1 : √((1 / 10 ^ 5) ^ 2 : ℝ) ≤ clippedStd v := by
    refine Real.sqrt_le_sqrt ?_
    refine le_trans ?_ (le_max_right _ _)
    norm_num
  rw [Real.sqrt_sq (by norm_num)] at h1
  exact lt_of_lt_of_le (by norm_num) h1

theorem clippedStd_hasFDerivAt {v : E → ℝ} {x : E} {dv : E →L[ℝ] ℝ} (hv : HasFDerivAt v dv x)
    (hclip : 1 / 10 ^ 10 < v x) :
    ∃ L : E →L[ℝ] ℝ, HasFDerivAt (fun y => clippedStd (v y)) L x ∧ ∀ w, L w = reportedStdGrad (v x) (dv w) := by
  have h0 := ne_zero_of_clip hclip
  have h1 := (Real.hasDerivAt_sqrt h0).comp_hasFDerivAt x hv
  refine ⟨_, h1.congr_of_eventuallyEq ?_, ?_⟩
  · filter_upwards [hv.continuousAt.eventually_const_lt hclip] with y hy
    simp only [clippedStd, max_eq_left hy.le, Function.comp]
  · intro w
    simp only [smul_apply, smul_eq_mul, reportedStdGrad, clippedStd, max_eq_left hclip.le]
    ring

/-- **C80.** For a Gaussian process model whose posterior mean and variance are differentiable, at a point where
the variance exceeds `1e-10`: the gradients of EI, MPI and LCB, computed from the reported deviation and its
reported gradient, are the derivatives of their values. -/
theorem C80_gp_acquisition_gradients_partial (jitter fmin w : ℝ) (m v : E → ℝ) (x : E) (dm dv : E →L[ℝ] ℝ)
    (hm : HasFDerivAt m dm x) (hv : HasFDerivAt v dv x) (hclip : 1 / 10 ^ 10 < v x) :
    IsGradientAt (fun y => clippedStd (v y)) x (fun h => reportedStdGrad (v x) (dv h)) ∧
    IsGradientAt (fun y => eiValue jitter fmin (m y) (clippedStd (v y))) x
      (fun h => (eiWithGrad jitter fmin (m x) (clippedStd (v x)) (dm h) (reportedStdGrad (v x) (dv h))).2) ∧
    IsGradientAt (fun y => mpiValue jitter fmin (m y) (clippedStd (v y))) x
      (fun h => (mpiWithGrad jitter fmin (m x) (clippedStd (v x)) (dm h) (reportedStdGrad (v x) (dv h))).2) ∧
    IsGradientAt (fun y => lcbValue w (m y) (clippedStd (v y))) x
      (fun h => (lcbWithGrad w (m x) (clippedStd (v x)) (dm h) (reportedStdGrad (v x) (dv h))).2) := by
  obtain ⟨L, hL, e⟩ := clippedStd_hasFDerivAt hv hclip
  simp only [← e]
  exact ⟨⟨L, hL, fun _ => rfl⟩,
    (C58_ei_gradient jitter fmin m _ x dm L hm hL (clippedStd_gt _)).1,
    (C59_mpi_gradient jitter fmin m _ x dm L hm hL (clippedStd_gt _)).1,
    (C59_lcb_gradient w m _ x dm L hm hL).1⟩

/-- Where the variance is below `1e-10` the reported deviation is constant but its reported gradient is not zero
(unless the variance is stationary), so the gradient of LCB with a nonzero weight is not the derivative of its
value. -/
theorem C80_clipped_counterexample (w : ℝ) (hw : w ≠ 0) (m v : E → ℝ) (x h : E) (dm dv : E →L[ℝ] ℝ)
    (hm : HasFDerivAt m dm x) (hv : HasFDerivAt v dv x) (hclip : v x < 1 / 10 ^ 10) (hh : dv h ≠ 0) :
    ¬ IsGradientAt (fun y => clippedStd (v y)) x (fun h => reportedStdGrad (v x) (dv h)) ∧
    ¬ IsGradientAt (fun y => lcbValue w (m y) (clippedStd (v y))) x
      (fun h => (lcbWithGrad w (m x) (clippedStd (v x)) (dm h) (reportedStdGrad (v x) (dv h))).2) := by
  have hev : ∀ᶠ y in 𝓝 x, clippedStd (v y) = clippedStd (v x) := by
    filter_upwards [hv.continuousAt.eventually_lt_const hclip] with y hy
    simp only [clippedStd, max_eq_right hy.le, max_eq_right hclip.le]
  have h0 : reportedStdGrad (v x) (dv h) ≠ 0 := by
    have := ne_zero_of_clip (clippedStd_gt (v x))
    exact div_ne_zero hh (mul_ne_zero two_ne_zero this)
  constructor
  · rintro ⟨L, hL, e⟩
    have h2 : HasFDerivAt (fun y => clippedStd (v y)) (0 : E →L[ℝ] ℝ) x :=
      (hasFDerivAt_const (clippedStd (v x)) x).congr_of_eventuallyEq hev
    have := congrArg (fun T => T h) (hL.unique h2)
    simp only [e, zero_apply] at this
    exact h0 this
  · rintro ⟨L, hL, e⟩
    have h2 : HasFDerivAt (fun y => lcbValue w (m y) (clippedStd (v y))) (-dm) x := by
      have := hm.neg.add_const (w * clippedStd (v x))
      refine this.congr_of_eventuallyEq ?_
      filter_upwards [hev] with y hy
      simp [lcbValue, hy]
    have := congrArg (fun T => T h) (hL.unique h2)
    simp only [e, lcbWithGrad, neg_apply] at this
    rcases mul_eq_zero.1 (by linarith : w * reportedStdGrad (v x) (dv h) = 0) with h | h
    · exact hw h
    · exact h0 h

/-! ## Concrete cases -/

/-- The hypotheses of C58–C61 are met, e.g. by mean `2 x` and deviation `x` at `x = 1`. -/
noncomputable def exSample : SampleDeriv ℝ :=
  { post := { m := fun y => 2 * y, s := fun y => y, fmin := 0 }
    dm := (2 : ℝ) • ContinuousLinearMap.id ℝ ℝ
    ds := ContinuousLinearMap.id ℝ ℝ }

theorem exSample_ok : exSample.Ok 1 := by
  refine ⟨?_, hasFDerivAt_id 1, ?_⟩
  · exact (hasFDerivAt_id (1 : ℝ)).const_mul 2
  · show (1 / 10 ^ 10 : ℝ) < 1
    norm_num

/-- The EI gradient of that case is the derivative of its value. -/
example : IsGradientAt (fun y : ℝ => eiValue (1 / 100) 0 (2 * y) y) 1
    (fun v => (eiWithGrad (1 / 100) 0 (2 * 1) 1 (2 * v) v).2) :=
  (C58_ei_gradient (1 / 100) 0 (fun y => 2 * y) (fun y => y) 1 exSample.dm exSample.ds exSample_ok.1
    exSample_ok.2.1 exSample_ok.2.2).1

/-- The integrated EI of that case with the default jitter has a wrong gradient. -/
example : ¬ IsGradientAt (fun y => eiMcmcTerm (1 / 100) (exSample.at y 0)) 1
    (fun w => (eiMcmcTermGrad (1 / 100) (exSample.at 1 w)).2) :=
  C61_ei_gradient_counterexample (1 / 100) (by norm_num) exSample 1 1 exSample_ok (by norm_num [exSample])

/-- Cost `1 + x` and acquisition `2 x` at `x = 1`, unconstrained. -/
example : IsGradientAt (fun y : ℝ => weightedAcq (2 * y) 1 (1 + y)) 1
    (fun v => (weightedAcqGrad (2 * 1) (2 * v) 1 (1 + 1) v).2) :=
  (C60_weighted_gradient (fun y => 2 * y) (fun y => 1 + y) (fun _ => 1) 1
    ((2 : ℝ) • ContinuousLinearMap.id ℝ ℝ) (ContinuousLinearMap.id ℝ ℝ)
    ((hasFDerivAt_id (1 : ℝ)).const_mul 2) ((hasFDerivAt_id (1 : ℝ)).const_add 1) (by norm_num) (by simp)).1

/-- Variance `x` at `x = 1` is above the threshold, at `x = 0` below. -/
example : IsGradientAt (fun y : ℝ => clippedStd y) 1 (fun h => reportedStdGrad 1 h) ∧
    ¬ IsGradientAt (fun y : ℝ => clippedStd y) 0 (fun h => reportedStdGrad 0 h) :=
  ⟨(C80_gp_acquisition_gradients_partial 0 0 0 (fun y => y) (fun y : ℝ => y) 1 _ _ (hasFDerivAt_id 1)
      (hasFDerivAt_id 1) (by norm_num)).1,
   (C80_clipped_counterexample 1 one_ne_zero (fun y => y) (fun y : ℝ => y) 0 1 _ _ (hasFDerivAt_id 0)
      (hasFDerivAt_id 0) (by norm_num) (by simp)).1⟩

end GPyOpt.Props
