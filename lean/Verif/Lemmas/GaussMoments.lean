import Mathlib.Analysis.SpecialFunctions.Gaussian.PoissonSummation
import Verif.Lemmas.Gauss
import Verif.Spec.Acquisition

/-! Second moments of the truncated normal distribution. -/

namespace GPyOpt

open MeasureTheory ProbabilityTheory Set Filter
open scoped Topology

theorem integrable_sq_mul_npdf : Integrable fun t : ℝ => t ^ 2 * npdf t := by
  have h := integrable_rpow_mul_exp_neg_mul_sq (by norm_num : (0 : ℝ) < 1 / 2) (s := 2) (by norm_num)
  have := h.div_const √(2 * Real.pi)
  refine this.congr (ae_of_all _ fun t => ?_)
  simp only [npdf, Real.rpow_two]
  ring

theorem tendsto_id_mul_npdf_atBot : Tendsto (fun t : ℝ => t * npdf t) atBot (𝓝 0) := by
  have h1 := tendsto_rpow_abs_mul_exp_neg_mul_sq_cocompact (by norm_num : (0 : ℝ) < 1 / 2) 1
  have h2 := (h1.mono_left atBot_le_cocompact).div_const √(2 * Real.pi)
  rw [zero_div] at h2
  rw [tendsto_zero_iff_abs_tendsto_zero]
  refine h2.congr fun t => ?_
  rw [Function.comp_apply, abs_mul, abs_of_pos (npdf_pos t), Real.rpow_one, npdf]
  ring

theorem tendsto_ncdf_atBot : Tendsto ncdf atBot (𝓝 0) := by
  refine squeeze_zero' (Eventually.of_forall fun t => ncdf_nonneg t) ?_ tendsto_npdf_atBot
  filter_upwards [eventually_le_atBot (-1 : ℝ)] with t ht
  have h1 := std_improvement_pos t
  have h2 := ncdf_pos t
  nlinarith

theorem integral_Iic_sq_mul_npdf (u : ℝ) : ∫ t in Iic u, t ^ 2 * npdf t = ncdf u - u * npdf u := by
  have h := integral_Iic_of_hasDerivAt_of_tendsto' (a := u) (f := fun t => ncdf t - t * npdf t)
    (f' := fun t => t ^ 2 * npdf t) (m := 0) (fun x _ => by
      have := (hasDerivAt_ncdf x).sub ((hasDerivAt_id x).mul (hasDerivAt_npdf x))
      refine this.congr_deriv ?_
      simp only [id]
      ring) integrable_sq_mul_npdf.integrableOn
      (by simpa using tendsto_ncdf_atBot.sub tendsto_id_mul_npdf_atBot)
  rw [h]
  ring

/-- Integral of a quadratic polynomial against the lower part of the density. -/
theorem integral_Iic_quadratic (a b c u : ℝ) :
    ∫ t in Iic u, (a + b * t + c * t ^ 2) * npdf t
      = a * ncdf u - b * npdf u + c * (ncdf u - u * npdf u) := by
  have e : ∀ t : ℝ, (a + b * t + c * t ^ 2) * npdf t
      = a * npdf t + b * (t * npdf t) + c * (t ^ 2 * npdf t) := fun t => by ring
  simp only [e]
  have h1 := (integrable_npdf.const_mul a).integrableOn (s := Iic u)
  have h2 := (integrable_id_mul_npdf.const_mul b).integrableOn (s := Iic u)
  have h3 := (integrable_sq_mul_npdf.const_mul c).integrableOn (s := Iic u)
  have h12 : IntegrableOn (fun t => a * npdf t + b * (t * npdf t)) (Iic u) := h1.add h2
  rw [integral_add h12 h3, integral_add h1 h2, integral_const_mul, integral_const_mul, integral_const_mul,
    integral_Iic_sq_mul_npdf, integral_Iic_id_mul_npdf, ← ncdf_eq_integral]
  ring

/-- `(1 + u^2) Phi(u) + u phi(u)` is positive. -/
theorem second_improvement_pos (u : ℝ) : 0 < (1 + u ^ 2) * ncdf u + u * npdf u := by
  have h0 : ∀ u, 0 ≤ (1 + u ^ 2) * ncdf u + u * npdf u := by
    intro u
    have := integral_Iic_quadratic (u ^ 2) (-2 * u) 1 u
    have h2 : 0 ≤ ∫ t in Iic u, (u ^ 2 + -2 * u * t + 1 * t ^ 2) * npdf t := by
      refine setIntegral_nonneg measurableSet_Iic fun t _ => mul_nonneg ?_ (npdf_pos t).le
      nlinarith [sq_nonneg (u - t)]
    rw [this] at h2
    linarith
  have hmono : StrictMono fun u => (1 + u ^ 2) * ncdf u + u * npdf u := by
    apply strictMono_of_deriv_pos
    intro x
    have h1 := (((hasDerivAt_pow 2 x).const_add 1).mul (hasDerivAt_ncdf x)).add
      ((hasDerivAt_id x).mul (hasDerivAt_npdf x))
    have h2 : deriv (fun u => (1 + u ^ 2) * ncdf u + u * npdf u) x = 2 * (x * ncdf x + npdf x) := by
      refine (h1.congr_deriv ?_).deriv
      simp only [id]
      push_cast
      ring
    rw [h2]
    have := std_improvement_pos x
    positivity
  exact (h0 (u - 1)).trans_lt (hmono (by linarith))

/-- The variance of a truncated normal variable is positive. -/
theorem truncated_variance_pos (u : ℝ) : 0 < ncdf u ^ 2 - npdf u * (u * ncdf u + npdf u) := by
  have h0 : ∀ u, 0 ≤ ncdf u ^ 2 - npdf u * (u * ncdf u + npdf u) := by
    intro u
    have hp := ncdf_pos u
    set e := npdf u / ncdf u with he
    have hee : e * ncdf u = npdf u := by rw [he]; field_simp
    have h1 := integral_Iic_quadratic (e ^ 2) (2 * e) 1 u
    have h2 : 0 ≤ ∫ t in Iic u, (e ^ 2 + 2 * e * t + 1 * t ^ 2) * npdf t := by
      refine setIntegral_nonneg measurableSet_Iic fun t _ => mul_nonneg ?_ (npdf_pos t).le
      nlinarith [sq_nonneg (e + t)]
    rw [h1] at h2
    have h3 := mul_nonneg h2 hp.le
    have h4 : (e ^ 2 * ncdf u - 2 * e * npdf u + 1 * (ncdf u - u * npdf u)) * ncdf u
        = ncdf u ^ 2 - npdf u * (u * ncdf u + npdf u) := by
      rw [← hee]; ring
    rwa [h4] at h3
  have hmono : StrictMono fun u => ncdf u ^ 2 - npdf u * (u * ncdf u + npdf u) := by
    apply strictMono_of_deriv_pos
    intro x
    have h1 := ((hasDerivAt_ncdf x).pow 2).sub ((hasDerivAt_npdf x).mul
      (((hasDerivAt_id x).mul (hasDerivAt_ncdf x)).add (hasDerivAt_npdf x)))
    have h2 : deriv (fun u => ncdf u ^ 2 - npdf u * (u * ncdf u + npdf u)) x
        = npdf x * ((1 + x ^ 2) * ncdf x + x * npdf x) := by
      refine (h1.congr_deriv ?_).deriv
      simp only [id, Pi.add_apply, Pi.mul_apply]
      push_cast
      ring
    rw [h2]
    exact mul_pos (npdf_pos x) (second_improvement_pos x)
  exact (h0 (u - 1)).trans_lt (hmono (by linarith))

/-- Integrals over the positive half-line of a normal variable. -/
theorem gaussian_integral_Ici (m s : ℝ) (hs : 0 < s) (g : ℝ → ℝ) :
    ∫ x in Ici 0, g x ∂(Spec.normalLaw m s) = ∫ t in Iic (m / s), g (m - s * t) * npdf t := by
  have e : Spec.normalLaw m s = (gaussianReal 0 1).map fun z => m + (-s) * z := by
    rw [← gaussianReal_eq_map m (-s)]
    unfold Spec.normalLaw
    congr 1
    ext
    simp
  have hemb : MeasurableEmbedding fun z : ℝ => m + (-s) * z :=
    (Homeomorph.mulLeft₀ (-s) (neg_ne_zero.2 hs.ne')).trans (Homeomorph.addLeft m) |>.measurableEmbedding
  rw [e, hemb.setIntegral_map]
  have hpre : (fun z => m + (-s) * z) ⁻¹' Ici 0 = Iic (m / s) := by
    ext z
    simp only [mem_preimage, mem_Ici, mem_Iic, le_div_iff₀ hs]
    constructor <;> intro h <;> linarith
  rw [hpre, ← integral_indicator measurableSet_Iic, integral_gaussianReal_eq_integral_smul one_ne_zero,
    ← integral_indicator measurableSet_Iic]
  congr 1
  funext z
  by_cases hz : z ∈ Iic (m / s)
  · rw [indicator_of_mem hz, indicator_of_mem hz, smul_eq_mul, ← npdf_eq_gaussian]
    rw [show m + -s * z = m - s * z by ring]
    ring
  · rw [indicator_of_notMem hz, indicator_of_notMem hz, smul_zero]

end GPyOpt
