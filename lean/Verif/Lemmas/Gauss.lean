import Verif.Model.Acquisition
import Mathlib.Probability.Distributions.Gaussian.Real
import Mathlib.MeasureTheory.Integral.IntegralEqImproper
import Mathlib.MeasureTheory.Integral.IntervalIntegral.FundThmCalculus

/-! Lemmas on the Gaussian density and distribution function. -/

namespace GPyOpt

open MeasureTheory ProbabilityTheory Set Filter
open scoped NNReal Topology

theorem npdf_eq_gaussian (u : ℝ) : npdf u = gaussianPDFReal 0 1 u := by
  simp only [npdf, gaussianPDFReal, NNReal.coe_one, mul_one, sub_zero]
  rw [div_eq_inv_mul]
  congr 2
  ring

theorem npdf_pos (u : ℝ) : 0 < npdf u := by
  rw [npdf_eq_gaussian]; exact gaussianPDFReal_pos 0 1 u one_ne_zero

theorem continuous_npdf : Continuous npdf := by
  unfold npdf
  fun_prop

theorem integrable_npdf : Integrable npdf := by
  have := integrable_gaussianPDFReal 0 1
  rwa [show gaussianPDFReal 0 1 = npdf from funext fun u => (npdf_eq_gaussian u).symm] at this

theorem integral_npdf : ∫ t, npdf t = 1 := by
  simp only [npdf_eq_gaussian]
  exact integral_gaussianPDFReal_eq_one 0 one_ne_zero

/-- `0.5 * erfc(-u / sqrt 2)` is the integral of the density up to `u`. -/
theorem ncdf_eq_integral (u : ℝ) : ncdf u = ∫ t in Iic u, npdf t := by
  have h2 : (0 : ℝ) < 1 / √2 := by positivity
  have e1 := integral_comp_mul_left_Ioi (fun t : ℝ => Real.exp (-t ^ 2)) (-u) h2
  have e2 := integral_comp_neg_Ioi (-u) (fun t : ℝ => Real.exp (-(1 / √2 * t) ^ 2))
  have e3 : ∀ t : ℝ, npdf t = 1 / √(2 * Real.pi) * Real.exp (-(1 / √2 * t) ^ 2) := by
    intro t
    have : (1 / √2 * t) ^ 2 = 1 / 2 * t ^ 2 := by
      rw [mul_pow, div_pow, Real.sq_sqrt (by norm_num)]; norm_num
    rw [this, npdf]
    ring_nf
  have e4 : ∀ t : ℝ, Real.exp (-(1 / √2 * -t) ^ 2) = Real.exp (-(1 / √2 * t) ^ 2) := by
    intro t; congr 2; ring
  simp only [e3]
  rw [integral_const_mul, ncdf, erfc]
  simp only [e4, neg_neg] at e2
  rw [← e2, e1, show 1 / √2 * -u = -u / √2 by ring, smul_eq_mul]
  rw [Real.sqrt_mul (by norm_num)]
  have hp : √Real.pi ≠ 0 := by positivity
  have hs : √2 ≠ 0 := by positivity
  field_simp

theorem ncdf_nonneg (u : ℝ) : 0 ≤ ncdf u := by
  rw [ncdf_eq_integral]
  exact setIntegral_nonneg measurableSet_Iic fun t _ => (npdf_pos t).le

theorem ncdf_le_one (u : ℝ) : ncdf u ≤ 1 := by
  rw [ncdf_eq_integral, ← integral_npdf]
  exact setIntegral_le_integral integrable_npdf (ae_of_all _ fun t => (npdf_pos t).le)

theorem hasDerivAt_ncdf (u : ℝ) : HasDerivAt ncdf (npdf u) u := by
  have h1 : ∀ x, ncdf x = ncdf 0 + ∫ t in (0 : ℝ)..x, npdf t := by
    intro x
    rw [← intervalIntegral.integral_Iic_sub_Iic integrable_npdf.integrableOn integrable_npdf.integrableOn,
      ← ncdf_eq_integral, ← ncdf_eq_integral]
    ring
  have h2 : HasDerivAt (fun x => ncdf 0 + ∫ t in (0 : ℝ)..x, npdf t) (npdf u) u := by
    refine HasDerivAt.const_add _ ?_
    exact intervalIntegral.integral_hasDerivAt_right (continuous_npdf.intervalIntegrable _ _)
      (continuous_npdf.stronglyMeasurableAtFilter _ _) continuous_npdf.continuousAt
  exact h2.congr_of_eventuallyEq (Eventually.of_forall h1)

theorem hasDerivAt_npdf (u : ℝ) : HasDerivAt npdf (-u * npdf u) u := by
  have h1 : HasDerivAt (fun u : ℝ => -(1 / 2) * u ^ 2) (-u) u := by
    have := (hasDerivAt_pow 2 u).const_mul (-(1 / 2) : ℝ)
    refine this.congr_deriv ?_
    simp
  have h2 := h1.exp.div_const √(2 * Real.pi)
  refine h2.congr_deriv ?_
  rw [npdf]
  ring

theorem ncdf_strictMono : StrictMono ncdf := by
  apply strictMono_of_deriv_pos
  intro x
  rw [(hasDerivAt_ncdf x).deriv]
  exact npdf_pos x

theorem ncdf_pos (u : ℝ) : 0 < ncdf u :=
  (ncdf_nonneg (u - 1)).trans_lt (ncdf_strictMono (by linarith))

theorem ncdf_lt_one (u : ℝ) : ncdf u < 1 :=
  (ncdf_strictMono (by linarith : u < u + 1)).trans_le (ncdf_le_one (u + 1))

theorem integrable_id_mul_npdf : Integrable fun t : ℝ => t * npdf t := by
  have := (integrable_mul_exp_neg_mul_sq (by norm_num : (0 : ℝ) < 1 / 2)).div_const √(2 * Real.pi)
  refine this.congr (ae_of_all _ fun t => ?_)
  simp only [npdf]
  ring

theorem tendsto_npdf_atBot : Tendsto npdf atBot (𝓝 0) := by
  have h1 : Tendsto (fun u : ℝ => -(1 / 2) * u ^ 2) atBot atBot := by
    apply Tendsto.const_mul_atTop_of_neg (by norm_num)
    have := (tendsto_pow_atTop (α := ℝ) (two_ne_zero)).comp tendsto_neg_atBot_atTop
    refine this.congr fun x => ?_
    simp
  have h2 := (Real.tendsto_exp_atBot.comp h1).div_const √(2 * Real.pi)
  rw [zero_div] at h2
  exact h2

theorem integral_Iic_id_mul_npdf (u : ℝ) : ∫ t in Iic u, t * npdf t = -npdf u := by
  have h := integral_Iic_of_hasDerivAt_of_tendsto' (a := u) (f := fun t => -npdf t) (f' := fun t => t * npdf t)
    (m := 0) (fun x _ => by
      have := (hasDerivAt_npdf x).neg
      refine this.congr_deriv ?_
      ring) integrable_id_mul_npdf.integrableOn (by simpa using tendsto_npdf_atBot.neg)
  rw [h]
  ring

/-- The closed form of the expected improvement for the standard normal distribution. -/
theorem std_improvement (u : ℝ) : u * ncdf u + npdf u = ∫ t in Iic u, (u - t) * npdf t := by
  simp only [sub_mul]
  rw [integral_sub (integrable_npdf.const_mul u).integrableOn integrable_id_mul_npdf.integrableOn,
    integral_const_mul, integral_Iic_id_mul_npdf, ncdf_eq_integral]
  ring

theorem std_improvement_pos (u : ℝ) : 0 < u * ncdf u + npdf u := by
  have hmono : StrictMono fun u => u * ncdf u + npdf u := by
    apply strictMono_of_deriv_pos
    intro x
    have h1 := ((hasDerivAt_id x).mul (hasDerivAt_ncdf x)).add (hasDerivAt_npdf x)
    have h2 : deriv (fun u => u * ncdf u + npdf u) x = ncdf x := by
      refine (h1.congr_deriv ?_).deriv
      simp only [id]
      ring
    rw [h2]
    exact ncdf_pos x
  have h0 : ∀ u, 0 ≤ u * ncdf u + npdf u := by
    intro u
    rw [std_improvement]
    exact setIntegral_nonneg measurableSet_Iic fun t ht =>
      mul_nonneg (sub_nonneg.2 ht) (npdf_pos t).le
  exact (h0 (u - 1)).trans_lt (hmono (by linarith))

theorem gaussianReal_eq_map (m s : ℝ) :
    gaussianReal m (NNReal.mk (s ^ 2) (sq_nonneg s)) = (gaussianReal 0 1).map fun z => m + s * z := by
  have h1 := gaussianReal_map_const_mul (μ := 0) (v := 1) s
  have h2 := gaussianReal_map_const_add (μ := s * 0) (v := NNReal.mk (s ^ 2) (sq_nonneg s) * 1) m
  rw [← h1, Measure.map_map (by fun_prop) (by fun_prop)] at h2
  simp only [mul_zero, mul_one, zero_add] at h2
  rw [← h2]
  rfl

/-- Probability that a normal variable is at most `b`. -/
theorem gaussian_prob (m s b : ℝ) (hs : 0 < s) :
    ((gaussianReal m (NNReal.mk (s ^ 2) (sq_nonneg s))) (Iic b)).toReal = ncdf ((b - m) / s) := by
  rw [gaussianReal_eq_map m s, Measure.map_apply (by fun_prop) measurableSet_Iic]
  have : (fun z => m + s * z) ⁻¹' Iic b = Iic ((b - m) / s) := by
    ext z
    simp only [mem_preimage, mem_Iic, le_div_iff₀ hs]
    constructor <;> intro h <;> linarith
  rw [this, gaussianReal_apply_eq_integral 0 one_ne_zero, ENNReal.toReal_ofReal, ncdf_eq_integral]
  · simp only [npdf_eq_gaussian]
  · exact setIntegral_nonneg measurableSet_Iic fun t _ => gaussianPDFReal_nonneg 0 1 t

/-- Expected improvement below `b` of a normal variable. -/
theorem gaussian_improvement (m s b : ℝ) (hs : 0 < s) :
    ∫ y, max (b - y) 0 ∂(gaussianReal m (NNReal.mk (s ^ 2) (sq_nonneg s)))
      = s * ((b - m) / s * ncdf ((b - m) / s) + npdf ((b - m) / s)) := by
  rw [gaussianReal_eq_map m s, integral_map (by fun_prop) (by fun_prop),
    integral_gaussianReal_eq_integral_smul one_ne_zero, std_improvement, ← integral_const_mul,
    ← integral_indicator measurableSet_Iic]
  congr 1
  funext z
  rw [smul_eq_mul, ← npdf_eq_gaussian]
  by_cases hz : z ≤ (b - m) / s
  · rw [indicator_of_mem (show z ∈ Iic ((b - m) / s) from hz)]
    have : z * s ≤ b - m := (le_div_iff₀ hs).1 hz
    rw [max_eq_left (by linarith)]
    field_simp
    ring
  · rw [indicator_of_notMem (show z ∉ Iic ((b - m) / s) from hz)]
    have : b - m < z * s := by
      by_contra hc
      exact hz ((le_div_iff₀ hs).2 (not_lt.1 hc))
    rw [max_eq_right (by linarith)]
    simp

end GPyOpt
