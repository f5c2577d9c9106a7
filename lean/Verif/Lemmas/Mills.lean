import Verif.Lemmas.GaussMoments
import Mathlib.Analysis.Complex.ExponentialBounds
import Mathlib.Analysis.Real.Pi.Bounds

/-!
# Bounds of the inverse Mills ratio

`e = npdf z / ncdf z`; the reduction of the variance of a normal value by a truncation is `e * (e + z)`.
-/

namespace GPyOpt
open Filter Topology Set

theorem hasDerivAt_reduction (z : ℝ) :
    HasDerivAt (fun z => npdf z * (npdf z + z * ncdf z)) (-(z * npdf z * (npdf z + z * ncdf z)) + npdf z * ncdf z) z := by
  have h1 := hasDerivAt_npdf z
  have h2 := hasDerivAt_ncdf z
  have := h1.mul (h1.add ((hasDerivAt_id z).mul h2))
  refine this.congr_deriv ?_
  simp only [Pi.add_apply, Pi.mul_apply, id]
  ring

/-- A truncation that removes more than half of the mass removes more than half of the variance. -/
theorem reduction_ge_half {z : ℝ} (hz : z ≤ 0) : ncdf z ^ 2 ≤ 2 * (npdf z * (npdf z + z * ncdf z)) := by
  set F : ℝ → ℝ := fun z => 2 * (npdf z * (npdf z + z * ncdf z)) - ncdf z ^ 2 with hF
  have hd : ∀ x, HasDerivAt F (-(2 * x * npdf x * (npdf x + x * ncdf x))) x := by
    intro x
    have h := ((hasDerivAt_reduction x).const_mul 2).sub ((hasDerivAt_ncdf x).pow 2)
    refine h.congr_deriv ?_
    ring
  have hmono : MonotoneOn F (Iic 0) := by
    refine monotoneOn_of_deriv_nonneg (convex_Iic 0) (fun x _ => (hd x).continuousAt.continuousWithinAt)
      (fun x _ => (hd x).differentiableAt.differentiableWithinAt) ?_
    intro x hx
    rw [interior_Iic] at hx
    rw [(hd x).deriv]
    have h1 := std_improvement_pos x
    have h2 := npdf_pos x
    have hx0 : 0 ≤ -x := by linarith [mem_Iio.1 hx]
    have : 0 ≤ 2 * (-x) * npdf x * (npdf x + x * ncdf x) :=
      mul_nonneg (mul_nonneg (by linarith) h2.le) (by linarith)
    linarith
  have hlim : Tendsto F atBot (𝓝 0) := by
    have h1 := tendsto_npdf_atBot
    have h2 := tendsto_ncdf_atBot
    have h3 := tendsto_id_mul_npdf_atBot
    have h4 : Tendsto (fun z => 2 * (npdf z * npdf z + z * npdf z * ncdf z) - ncdf z ^ 2) atBot
        (𝓝 (2 * (0 * 0 + 0 * 0) - 0 ^ 2)) :=
      (((h1.mul h1).add (h3.mul h2)).const_mul 2).sub (h2.pow 2)
    norm_num at h4
    refine h4.congr fun x => ?_
    rw [hF]
    ring
  have : 0 ≤ F z := by
    refine le_of_tendsto hlim ?_
    filter_upwards [eventually_le_atBot z] with x hx
    exact hmono (hx.trans hz) hz hx
  rw [hF] at this
  linarith

theorem npdf_zero_sq : npdf 0 ^ 2 = 1 / (2 * Real.pi) := by
  have : npdf 0 = 1 / √(2 * Real.pi) := by simp [npdf]
  rw [this, div_pow, Real.sq_sqrt (by positivity), one_pow]

theorem ncdf_zero : ncdf 0 = 1 / 2 := by
  have h1 : ∫ t in Iic (0 : ℝ), npdf t = ∫ t in Ioi (0 : ℝ), npdf t := by
    have h := integral_comp_neg_Ioi (0 : ℝ) npdf
    have : ∀ t, npdf (-t) = npdf t := fun t => by simp [npdf]
    simp only [this, neg_zero] at h
    exact h.symm
  have h2 := MeasureTheory.integral_add_compl (s := Iic (0 : ℝ)) measurableSet_Iic integrable_npdf
  rw [compl_Iic, integral_npdf] at h2
  rw [ncdf_eq_integral]
  linarith

/-- A truncation that removes less than half of the mass removes less than two thirds of the variance. -/
theorem reduction_le_two_thirds {z : ℝ} (hz : 0 ≤ z) :
    npdf z * (npdf z + z * ncdf z) ≤ 2 / 3 * ncdf z ^ 2 := by
  set K : ℝ → ℝ := fun z => 2 / 3 * ncdf z ^ 2 - npdf z * (npdf z + z * ncdf z) with hK
  have hd : ∀ x, HasDerivAt K (npdf x * (1 / 3 * ncdf x + x * npdf x + x ^ 2 * ncdf x)) x := by
    intro x
    have h := (((hasDerivAt_ncdf x).pow 2).const_mul (2 / 3)).sub (hasDerivAt_reduction x)
    refine h.congr_deriv ?_
    ring
  have hmono : MonotoneOn K (Ici 0) := by
    refine monotoneOn_of_deriv_nonneg (convex_Ici 0) (fun x _ => (hd x).continuousAt.continuousWithinAt)
      (fun x _ => (hd x).differentiableAt.differentiableWithinAt) ?_
    intro x hx
    rw [interior_Ici] at hx
    rw [(hd x).deriv]
    have h1 := npdf_pos x
    have h2 := ncdf_pos x
    have h3 : 0 < x := hx
    positivity
  have h0 : 0 ≤ K 0 := by
    rw [hK]
    simp only [zero_mul, add_zero]
    rw [← sq, npdf_zero_sq, ncdf_zero]
    have : 1 / (2 * Real.pi) ≤ 1 / 6 := one_div_le_one_div_of_le (by norm_num) (by linarith [Real.pi_gt_three])
    linarith
  have := h0.trans (hmono (mem_Ici.2 le_rfl) hz hz)
  rw [hK] at this
  linarith

theorem npdf_antitone {a b : ℝ} (ha : 0 ≤ a) (h : a ≤ b) : npdf b ≤ npdf a := by
  unfold npdf
  refine div_le_div_of_nonneg_right (Real.exp_le_exp.2 ?_) (Real.sqrt_nonneg _)
  nlinarith

theorem sqrt_two_pi_le : √(2 * Real.pi) ≤ 13 / 5 := by
  rw [Real.sqrt_le_left (by norm_num)]
  nlinarith [Real.pi_lt_d2]

theorem npdf_two : 1 / 20 ≤ npdf 2 := by
  unfold npdf
  rw [le_div_iff₀ (Real.sqrt_pos.2 (by positivity))]
  have h1 : Real.exp (-(1 / 2) * 2 ^ 2) = (Real.exp 1 ^ 2)⁻¹ := by
    rw [← Real.exp_nat_mul, ← Real.exp_neg]
    congr 1
    norm_num
  rw [h1]
  have h2 := Real.exp_one_lt_d9
  have h3 : Real.exp 1 ^ 2 ≤ 2.72 ^ 2 := pow_le_pow_left₀ (Real.exp_pos 1).le (by linarith) 2
  have h4 : ((2.72 : ℝ) ^ 2)⁻¹ ≤ (Real.exp 1 ^ 2)⁻¹ := inv_anti₀ (by positivity) h3
  have h5 := sqrt_two_pi_le
  have h6 : (13 / 100 : ℝ) ≤ (2.72 ^ 2)⁻¹ := by norm_num
  linarith

theorem npdf_five : 8 / 10 ^ 7 ≤ npdf 5 := by
  unfold npdf
  rw [le_div_iff₀ (Real.sqrt_pos.2 (by positivity))]
  have h1 : (Real.exp 1 ^ 13)⁻¹ ≤ Real.exp (-(1 / 2) * 5 ^ 2) := by
    rw [← Real.exp_nat_mul, ← Real.exp_neg]
    refine Real.exp_le_exp.2 ?_
    norm_num
  have h2 := Real.exp_one_lt_d9
  have h3 : Real.exp 1 ^ 13 ≤ 2.72 ^ 13 := pow_le_pow_left₀ (Real.exp_pos 1).le (by linarith) 13
  have h4 : ((2.72 : ℝ) ^ 13)⁻¹ ≤ (Real.exp 1 ^ 13)⁻¹ := inv_anti₀ (by positivity) h3
  have h5 := sqrt_two_pi_le
  have h6 : (22 / 10 ^ 7 : ℝ) ≤ (2.72 ^ 13)⁻¹ := by norm_num
  linarith

theorem npdf_le_half (z : ℝ) : npdf z ≤ 1 / 2 := by
  have h0 : npdf z ≤ npdf 0 := by
    unfold npdf
    refine div_le_div_of_nonneg_right (Real.exp_le_exp.2 ?_) (Real.sqrt_nonneg _)
    nlinarith [sq_nonneg z]
  have h1 : npdf 0 ^ 2 ≤ (1 / 2) ^ 2 := by
    rw [npdf_zero_sq]
    have : 1 / (2 * Real.pi) ≤ 1 / 6 := one_div_le_one_div_of_le (by norm_num) (by linarith [Real.pi_gt_three])
    linarith
  have := abs_le_of_sq_le_sq h1 (by norm_num)
  linarith [le_abs_self (npdf 0)]

/-- The distribution function is Lipschitz. -/
theorem ncdf_lipschitz (a b : ℝ) : |ncdf a - ncdf b| ≤ 1 / 2 * |a - b| := by
  have := Convex.norm_image_sub_le_of_norm_hasDerivWithin_le (f := ncdf) (f' := npdf) (C := 1 / 2) (s := univ)
    (x := b) (y := a) (fun x _ => (hasDerivAt_ncdf x).hasDerivWithinAt)
    (fun x _ => by rw [Real.norm_eq_abs, abs_of_pos (npdf_pos x)]; exact npdf_le_half x) convex_univ
    (mem_univ _) (mem_univ _)
  simpa [Real.norm_eq_abs] using this

end GPyOpt
