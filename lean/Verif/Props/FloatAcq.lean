import Verif.Spec.FloatAcq
import Verif.Props.EpmgpRange

/-!
# Property C136: acquisitions in floating-point arithmetic
-/

namespace GPyOpt

open Spec

theorem _root_.GPyOpt.Spec.Near.factor {ε x y : ℝ} (hε : 0 ≤ ε) (h : Near ε x y) : ∃ e, |e| ≤ ε ∧ y = x * (1 + e) := by
  by_cases hx : x = 0
  · subst hx
    refine ⟨0, by simpa using hε, ?_⟩
    unfold Near at h
    simp only [sub_zero, abs_zero, mul_zero] at h
    rw [abs_nonpos_iff.1 h]
    ring
  · refine ⟨(y - x) / x, ?_, by field_simp; ring⟩
    rw [abs_div, div_le_iff₀ (abs_pos.2 hx)]
    exact h

theorem near_of_factor {ε x y e : ℝ} (he : |e| ≤ ε) (h : y = x * (1 + e)) : Near ε x y := by
  unfold Near
  rw [h, show x * (1 + e) - x = e * x by ring, abs_mul]
  exact mul_le_mul_of_nonneg_right he (abs_nonneg x)

/-- Two relative errors one after the other. -/
theorem _root_.GPyOpt.Spec.Near.comp {a b x y z : ℝ} (ha : 0 ≤ a) (hb : 0 ≤ b) (h1 : Near a x y) (h2 : Near b y z) :
    Near (a + b + a * b) x z := by
  obtain ⟨e, he, rfl⟩ := h1.factor ha
  obtain ⟨f, hf, rfl⟩ := h2.factor hb
  refine near_of_factor (e := e + f + e * f) ?_ (by ring)
  calc |e + f + e * f| ≤ |e| + |f| + |e| * |f| := by
        refine (abs_add_le _ _).trans ?_
        rw [abs_mul]
        gcongr
        exact abs_add_le _ _
    _ ≤ a + b + a * b := by gcongr

theorem _root_.GPyOpt.Spec.Near.mono {a b x y : ℝ} (h : Near a x y) (hab : a ≤ b) : Near b x y :=
  le_trans (b := a * |x|) h (mul_le_mul_of_nonneg_right hab (abs_nonneg x))

theorem _root_.GPyOpt.Spec.Near.const_mul {a x y : ℝ} (c : ℝ) (h : Near a x y) : Near a (c * x) (c * y) := by
  unfold Near at *
  rw [← mul_sub, abs_mul, abs_mul]
  calc |c| * |y - x| ≤ |c| * (a * |x|) := by gcongr
    _ = a * (|c| * |x|) := by ring

/-- Dividing by a number with a relative error. -/
theorem _root_.GPyOpt.Spec.Near.div_const {a c c' : ℝ} (ha : 0 ≤ a) (ha' : a ≤ 1 / 1000) (hc : c ≠ 0) (h : Near a c c') (x : ℝ) :
    Near (1002 / 1000 * a) (x / c) (x / c') := by
  obtain ⟨e, he, rfl⟩ := h.factor ha
  obtain ⟨he1, he2⟩ := abs_le.1 he
  have h1 : (0 : ℝ) < 1 + e := by linarith
  refine near_of_factor (e := -e / (1 + e)) ?_ (by field_simp; ring)
  rw [abs_div, abs_neg, abs_of_pos h1, div_le_iff₀ h1]
  nlinarith [abs_nonneg e]

/-! ## The density -/

theorem exp_near {t t' D : ℝ} (hD : D ≤ 1 / 1000) (h : |t' - t| ≤ D) :
    Near (1002 / 1000 * D) (Real.exp t) (Real.exp t') := by
  have hD0 : 0 ≤ D := (abs_nonneg _).trans h
  have h1 := Real.abs_exp_sub_one_sub_id_le (x := t' - t) (h.trans (by linarith))
  have h2 : |Real.exp (t' - t) - 1| ≤ 1002 / 1000 * D := by
    have h3 : |Real.exp (t' - t) - 1| ≤ |t' - t| + (t' - t) ^ 2 := by
      calc |Real.exp (t' - t) - 1| = |(Real.exp (t' - t) - 1 - (t' - t)) + (t' - t)| := by ring_nf
        _ ≤ _ := (abs_add_le _ _).trans (by linarith)
    have h4 : (t' - t) ^ 2 ≤ D * D := by
      rw [← sq_abs, sq]
      exact mul_le_mul h h (abs_nonneg _) hD0
    nlinarith
  refine near_of_factor h2 ?_
  rw [show (1 : ℝ) + (Real.exp (t' - t) - 1) = Real.exp (t' - t) by ring, ← Real.exp_add]
  ring_nf

theorem flPhi_near {ε : ℝ} {M : FlMath} (hM : Accurate ε M) (h0 : 0 ≤ ε) (hε : ε ≤ 1 / 10 ^ 7) {u : ℝ} (hu : |u| ≤ 38) :
    Near (1500 * ε) (npdf u) (flPhi M u) := by
  have hu2 : u ^ 2 ≤ 1444 := by
    rw [← sq_abs]
    nlinarith [abs_nonneg u]
  have hε2 : ε * ε ≤ ε / 10 ^ 7 := by nlinarith
  -- the argument
  have h1 : Near (ε + ε + ε * ε) (-(1 / 2) * u ^ 2) (M.rd (-(1 / 2) * M.rd (u ^ 2))) :=
    ((hM.rd (u ^ 2)).const_mul _).comp h0 h0 (hM.rd _)
  have h2 : |M.rd (-(1 / 2) * M.rd (u ^ 2)) - -(1 / 2) * u ^ 2| ≤ 1445 * ε := by
    refine le_trans h1 ?_
    rw [abs_mul, abs_of_nonneg (sq_nonneg u), abs_neg, abs_of_pos (by norm_num : (0 : ℝ) < 1 / 2)]
    nlinarith [sq_nonneg u]
  have h3 := exp_near (by linarith) h2
  have h4 := h3.comp (by positivity) h0 (hM.exp _)
  have hpi : √(2 * Real.pi) ≠ 0 := by positivity
  have hd : Near (1002 / 1000 * ε) (1 / √(2 * Real.pi) * M.exp (M.rd (-(1 / 2) * M.rd (u ^ 2))))
      (M.exp (M.rd (-(1 / 2) * M.rd (u ^ 2))) / M.sqrt2pi) := by
    have := hM.sqrt2pi.div_const h0 (by linarith) hpi (M.exp (M.rd (-(1 / 2) * M.rd (u ^ 2))))
    rwa [← one_div_mul_eq_div (√(2 * Real.pi))] at this
  have h5 := (h4.const_mul (1 / √(2 * Real.pi))).comp (by positivity) (by positivity) hd
  have h6 := h5.comp (by positivity) h0 (hM.rd _)
  unfold npdf flPhi
  rw [show Real.exp (-(1 / 2) * u ^ 2) / √(2 * Real.pi) = 1 / √(2 * Real.pi) * Real.exp (-(1 / 2) * u ^ 2) by ring]
  refine h6.mono ?_
  nlinarith [mul_nonneg h0 h0, mul_nonneg h0 (mul_nonneg h0 h0)]

/-! ## The distribution function -/

theorem npdf_zero_le : npdf 0 ≤ 1 / 2 := by
  unfold npdf
  have h1 : (2 : ℝ) ≤ √(2 * Real.pi) := by
    apply Real.le_sqrt_of_sq_le
    nlinarith [Real.pi_gt_three]
  rw [div_le_div_iff₀ (by positivity) (by norm_num), show -(1 / 2) * (0 : ℝ) ^ 2 = 0 by ring, Real.exp_zero]
  linarith

theorem ratio_le_one_add (u : ℝ) : npdf u / ncdf u ≤ 1 + |u| := by
  have h := abs_le.1 (Props.ratio_lipschitz u 0)
  have h2 : npdf 0 / ncdf 0 ≤ 1 := by
    rw [ncdf_zero, div_le_iff₀ (by norm_num)]
    linarith [npdf_zero_le]
  simp only [sub_zero] at h
  linarith [h.2]

theorem ncdf_near {u v D : ℝ} (hu : |u| ≤ 39) (hv : |v| ≤ 39) (hD : 40 * |v - u| ≤ D) (hD' : D ≤ 1 / 1000) :
    Near (1002 / 1000 * D) (ncdf u) (ncdf v) := by
  have hl : |Real.log (ncdf v) - Real.log (ncdf u)| ≤ D := by
    have h := Convex.norm_image_sub_le_of_norm_hasDerivWithin_le (f := fun z => Real.log (ncdf z))
      (f' := fun z => npdf z / ncdf z) (C := 40) (s := Set.Icc (-39) 39) (x := u) (y := v)
      (fun x _ => ((hasDerivAt_ncdf x).log (ncdf_pos x).ne').hasDerivWithinAt)
      (fun x hx => by
        rw [Real.norm_eq_abs, abs_of_pos (div_pos (npdf_pos x) (ncdf_pos x))]
        have := ratio_le_one_add x
        have h2 : |x| ≤ 39 := abs_le.2 hx
        linarith)
      (convex_Icc _ _) (abs_le.1 hu) (abs_le.1 hv)
    simp only [Real.norm_eq_abs] at h
    linarith
  have h := exp_near hD' hl
  rwa [Real.exp_log (ncdf_pos u), Real.exp_log (ncdf_pos v)] at h

theorem flCdf_near {ε : ℝ} {M : FlMath} (hM : Accurate ε M) (h0 : 0 ≤ ε) (hε : ε ≤ 1 / 10 ^ 7) {u : ℝ} (hu : |u| ≤ 38) :
    Near (3100 * ε) (ncdf u) (flCdf M u) := by
  have h2 : √(2 : ℝ) ≠ 0 := by positivity
  have hε2 : ε * ε ≤ ε / 10 ^ 7 := by nlinarith
  have h1 := (hM.sqrt2.div_const h0 (by linarith) h2 (-u)).comp (by positivity) h0 (hM.rd _)
  obtain ⟨e, he, hr⟩ := (h1.mono (b := 201 / 100 * ε) (by nlinarith)).factor (by positivity)
  -- the point whose quantile is computed
  set v := u * (1 + e) with hv
  have hvr : M.rd (-u / M.sqrt2) = -v / √2 := by rw [hr, hv]; ring
  have hvu : |v - u| ≤ 38 * (201 / 100 * ε) := by
    rw [hv, show u * (1 + e) - u = u * e by ring, abs_mul]
    exact mul_le_mul hu he (abs_nonneg _) (by norm_num)
  have hv39 : |v| ≤ 39 := by
    have : |v| ≤ |u| + |v - u| := by
      calc |v| = |u + (v - u)| := by ring_nf
        _ ≤ _ := abs_add_le _ _
    linarith
  have h3 := ncdf_near (D := 40 * (38 * (201 / 100 * ε))) (hu.trans (by norm_num)) hv39 (by linarith) (by linarith)
  have h4 : Near ε (ncdf v) (1 / 2 * M.erfc (M.rd (-u / M.sqrt2))) := by
    rw [hvr]
    exact (hM.erfc (-v / √2)).const_mul _
  have h5 := (h3.comp (by positivity) h0 h4).comp (by positivity) h0 (hM.rd _)
  unfold flCdf
  refine h5.mono ?_
  nlinarith [mul_nonneg h0 h0, mul_nonneg h0 (mul_nonneg h0 h0)]

/-! ## Cancellation in the expected improvement -/

theorem improvement_condition (u : ℝ) : |u| * ncdf u + npdf u ≤ 4 * (1 + |u|) ^ 2 * (u * ncdf u + npdf u) := by
  have hP := ncdf_pos u
  have hp := npdf_pos u
  have hh := std_improvement_pos u
  rcases le_total 0 u with h | h
  · rw [abs_of_nonneg h]
    have : (1 : ℝ) ≤ 4 * (1 + u) ^ 2 := by nlinarith
    nlinarith
  · have h1 := reduction_ge_half h
    have h2 := ratio_le_one_add u
    rw [div_le_iff₀ hP, abs_of_nonpos h] at h2
    rw [abs_of_nonpos h]
    set P := ncdf u
    set p := npdf u
    have h3 : p ^ 2 ≤ (1 + -u) ^ 2 * P ^ 2 := by nlinarith
    have h4 : p ≤ 2 * (1 + -u) ^ 2 * (p + u * P) := by
      have : p * p ≤ p * (2 * (1 + -u) ^ 2 * (p + u * P)) := by nlinarith [sq_nonneg (1 + -u)]
      exact le_of_mul_le_mul_left this hp
    nlinarith

theorem flH_near {ε : ℝ} {M : FlMath} (hM : Accurate ε M) (h0 : 0 ≤ ε) (hε : ε ≤ 1 / 10 ^ 7) {u : ℝ} (hu : |u| ≤ 38) :
    |M.rd (u * flCdf M u) + flPhi M u - (u * ncdf u + npdf u)| ≤ 3102 * ε * (|u| * ncdf u + npdf u) := by
  have hP := ncdf_pos u
  have hp := npdf_pos u
  have hε2 : ε * ε ≤ ε / 10 ^ 7 := by nlinarith
  have h1 := (((flCdf_near hM h0 hε hu).const_mul u).comp (by positivity) h0 (hM.rd _)).mono
    (b := 3102 * ε) (by nlinarith)
  have h2 := (flPhi_near hM h0 hε hu).mono (b := 3102 * ε) (by nlinarith)
  unfold Near at h1 h2
  rw [abs_mul, abs_of_pos hP] at h1
  rw [abs_of_pos hp] at h2
  calc _ = |(M.rd (u * flCdf M u) - u * ncdf u) + (flPhi M u - npdf u)| := by ring_nf
    _ ≤ _ := (abs_add_le _ _).trans (by linarith)

theorem clipStd_pos (s : ℝ) : 0 < clipStd s := by
  unfold clipStd
  split
  · positivity
  · rename_i h
    exact lt_of_lt_of_le (by positivity) (not_lt.1 h)

theorem flEi_near {ε : ℝ} {M : FlMath} (hM : Accurate ε M) (h0 : 0 ≤ ε) (hε : ε ≤ 1 / 10 ^ 8) {u c : ℝ}
    (hu : |u| ≤ 38) :
    Near (2 * 10 ^ 7 * ε) (c * (u * ncdf u + npdf u))
      (M.rd (c * M.rd (M.rd (u * flCdf M u) + flPhi M u))) := by
  have hh := std_improvement_pos u
  have h1 : Near (18873000 * ε) (u * ncdf u + npdf u) (M.rd (u * flCdf M u) + flPhi M u) := by
    unfold Near
    rw [abs_of_pos hh]
    have h2 := improvement_condition u
    have h3 : 4 * (1 + |u|) ^ 2 ≤ 6084 := by nlinarith [abs_nonneg u]
    have h4 : |u| * ncdf u + npdf u ≤ 6084 * (u * ncdf u + npdf u) := h2.trans (by gcongr)
    refine (flH_near hM h0 (hε.trans (by norm_num)) hu).trans ?_
    calc 3102 * ε * (|u| * ncdf u + npdf u) ≤ 3102 * ε * (6084 * (u * ncdf u + npdf u)) := by gcongr
      _ ≤ _ := by nlinarith [mul_nonneg h0 hh.le]
  have h2 := ((h1.comp (by positivity) h0 (hM.rd _)).const_mul c).comp (by positivity) h0 (hM.rd _)
  refine h2.mono ?_
  have hε2 : ε * ε ≤ ε / 10 ^ 8 := by nlinarith
  nlinarith [mul_nonneg h0 h0, mul_nonneg h0 (mul_nonneg h0 h0)]

/-! ## The mean that explains the rounding of the quantile -/

theorem flU_mean {ε : ℝ} {M : FlMath} (hM : Accurate ε M) (h0 : 0 ≤ ε) (hε : ε ≤ 1 / 10 ^ 8) (jitter fmin m s : ℝ) :
    ∃ m', |m' - m| ≤ 4 * ε * (|fmin - m| + |jitter|) ∧
      flU M jitter fmin m s = (fmin - m' - jitter) / clipStd s := by
  have hc := (clipStd_pos s).ne'
  obtain ⟨a, ha, ea⟩ := (hM.rd (fmin - m)).factor h0
  obtain ⟨b, hb, eb⟩ := (hM.rd (M.rd (fmin - m) - jitter)).factor h0
  obtain ⟨d, hd, ed⟩ := (hM.rd (M.rd (M.rd (fmin - m) - jitter) / clipStd s)).factor h0
  have hε2 : ε * ε ≤ ε / 10 ^ 8 := by nlinarith
  -- the roundings as factors of the two terms
  have hbd : |b + d + b * d| ≤ 2 * ε + ε * ε := by
    refine (abs_add_le _ _).trans ?_
    rw [abs_mul]
    have := abs_add_le b d
    have := mul_le_mul hb hd (abs_nonneg _) h0
    linarith
  have habd : |a + (b + d + b * d) + a * (b + d + b * d)| ≤ ε + (2 * ε + ε * ε) + ε * (2 * ε + ε * ε) := by
    refine (abs_add_le _ _).trans ?_
    rw [abs_mul]
    have := abs_add_le a (b + d + b * d)
    have := mul_le_mul ha hbd (abs_nonneg _) h0
    linarith
  refine ⟨fmin - jitter - clipStd s * flU M jitter fmin m s, ?_, ?_⟩
  · have e : fmin - jitter - clipStd s * flU M jitter fmin m s - m =
        -((fmin - m) * (a + (b + d + b * d) + a * (b + d + b * d))) + jitter * (b + d + b * d) := by
      unfold flU
      rw [ed, eb, ea]
      field_simp
      ring
    rw [e]
    refine (abs_add_le _ _).trans ?_
    rw [abs_neg, abs_mul, abs_mul]
    have h1 : ε + (2 * ε + ε * ε) + ε * (2 * ε + ε * ε) ≤ 4 * ε := by
      nlinarith [mul_nonneg h0 h0]
    have h2 := mul_le_mul_of_nonneg_left (habd.trans h1) (abs_nonneg (fmin - m))
    have h3 := mul_le_mul_of_nonneg_left (hbd.trans (by nlinarith : 2 * ε + ε * ε ≤ 4 * ε)) (abs_nonneg jitter)
    linarith
  · field_simp
    ring

end GPyOpt

namespace GPyOpt.Props

open GPyOpt Spec

/-- **C136.** Evaluated in floating-point arithmetic with relative error `ε` per operation, expected improvement and
probability of improvement are those of a mean that differs from the given one by a few roundings of the improvement and
of the jitter, up to a relative error proportional to `ε`, for improvements of at most 38 deviations either way — beyond
which doubles underflow. No cancellation in `u * Phi + phi` spoils this, and the computed values are positive. -/
theorem C136_improvement {ε : ℝ} {M : FlMath} (hM : Accurate ε M) (h0 : 0 ≤ ε) (hε : ε ≤ 1 / 10 ^ 8)
    (jitter fmin m s : ℝ) :
    ∃ m', |m' - m| ≤ 4 * ε * (|fmin - m| + |jitter|) ∧
      (|fmin - m' - jitter| ≤ 38 * clipStd s →
        Near (2 * 10 ^ 7 * ε) (eiValue jitter fmin m' s) (flEi M jitter fmin m s) ∧
        Near (3100 * ε) (mpiValue jitter fmin m' s) (flMpi M jitter fmin m s) ∧
        0 < flEi M jitter fmin m s ∧ 0 < flMpi M jitter fmin m s) := by
  obtain ⟨m', h1, h2⟩ := flU_mean hM h0 hε jitter fmin m s
  have hc := clipStd_pos s
  refine ⟨m', h1, fun h => ?_⟩
  have hu : |(fmin - m' - jitter) / clipStd s| ≤ 38 := by
    rw [abs_div, abs_of_pos hc, div_le_iff₀ hc]
    exact h
  have he : Near (2 * 10 ^ 7 * ε) (eiValue jitter fmin m' s) (flEi M jitter fmin m s) := by
    unfold flEi eiValue getQuantiles
    simp only [h2]
    exact flEi_near hM h0 hε hu
  have hp : Near (3100 * ε) (mpiValue jitter fmin m' s) (flMpi M jitter fmin m s) := by
    unfold flMpi mpiValue getQuantiles
    simp only [h2]
    exact flCdf_near hM h0 (hε.trans (by norm_num)) hu
  have pos : ∀ {δ x y : ℝ}, 0 < x → δ < 1 → Near δ x y → 0 < y := by
    intro δ x y hx hδ h
    unfold Near at h
    rw [abs_of_pos hx] at h
    have := (abs_le.1 h).1
    nlinarith
  refine ⟨he, hp, pos ?_ (by linarith) he, pos ?_ (by linarith) hp⟩
  · unfold eiValue getQuantiles
    exact mul_pos hc (std_improvement_pos _)
  · exact ncdf_pos _

/-- **C136.** The lower confidence bound has an absolute error of a few roundings of its two terms. -/
theorem C136_lcb {ε : ℝ} {M : FlMath} (hM : Accurate ε M) (h0 : 0 ≤ ε) (hε : ε ≤ 1) (w m s : ℝ) :
    |flLcb M w m s - lcbValue w m s| ≤ 3 * ε * (|m| + |w * s|) := by
  obtain ⟨a, ha, ea⟩ := (hM.rd (w * s)).factor h0
  obtain ⟨b, hb, eb⟩ := (hM.rd (-m + M.rd (w * s))).factor h0
  unfold flLcb lcbValue
  rw [eb, ea, show (-m + w * s * (1 + a)) * (1 + b) - (-m + w * s) = -(m * b) + w * s * (a + b + a * b) by ring]
  refine (abs_add_le _ _).trans ?_
  rw [abs_neg, abs_mul, abs_mul (w * s)]
  have h1 : |a + b + a * b| ≤ 3 * ε := by
    refine (abs_add_le _ _).trans ?_
    rw [abs_mul]
    have := abs_add_le a b
    have := mul_le_mul ha hb (abs_nonneg _) h0
    nlinarith
  have h2 := mul_le_mul_of_nonneg_left hb (abs_nonneg m)
  have h3 := mul_le_mul_of_nonneg_left h1 (abs_nonneg (w * s))
  nlinarith [mul_nonneg h0 (abs_nonneg m)]

/-- **C136.** Where the bound of two locations differs by more than the roundings, the computed bounds are ordered the
same way: the location preferred by the search is preferred by the exact bound. -/
theorem C136_lcb_order {ε : ℝ} {M : FlMath} (hM : Accurate ε M) (h0 : 0 ≤ ε) (hε : ε ≤ 1) (w : ℝ) {m s m' s' : ℝ}
    (h : lcbValue w m s + 3 * ε * (|m| + |w * s| + |m'| + |w * s'|) < lcbValue w m' s') :
    flLcb M w m s < flLcb M w m' s' := by
  have h1 := (abs_le.1 (C136_lcb hM h0 hε w m s)).2
  have h2 := (abs_le.1 (C136_lcb hM h0 hε w m' s')).1
  nlinarith

/-- Arithmetic that makes an error in every operation. -/
noncomputable def offMath (e : ℝ) : FlMath :=
  ⟨fun x => x * (1 + e), fun x => Real.exp x * (1 - e), fun x => GPyOpt.erfc x * (1 + e), √2 * (1 - e),
    √(2 * Real.pi) * (1 + e)⟩

theorem accurate_off {e : ℝ} (he : 0 ≤ e) : Accurate e (offMath e) where
  rd x := near_of_factor (abs_of_nonneg he).le rfl
  exp x := near_of_factor (e := -e) (by rw [abs_neg, abs_of_nonneg he]) (by simp only [offMath]; ring)
  erfc x := near_of_factor (abs_of_nonneg he).le rfl
  sqrt2 := near_of_factor (e := -e) (by rw [abs_neg, abs_of_nonneg he]) (by simp only [offMath]; ring)
  sqrt2pi := near_of_factor (abs_of_nonneg he).le rfl

/-- Non-vacuity: arithmetic with an error of `10^-15` in every operation. -/
example : ∃ m', |m' - 3| ≤ 4 * (1 / 10 ^ 15) * (|1 - 3| + |(1 : ℝ) / 100|) ∧
    (|1 - m' - 1 / 100| ≤ 38 * clipStd 2 →
      Near (2 * 10 ^ 7 * (1 / 10 ^ 15)) (eiValue (1 / 100) 1 m' 2) (flEi (offMath (1 / 10 ^ 15)) (1 / 100) 1 3 2) ∧
      Near (3100 * (1 / 10 ^ 15)) (mpiValue (1 / 100) 1 m' 2) (flMpi (offMath (1 / 10 ^ 15)) (1 / 100) 1 3 2) ∧
      0 < flEi (offMath (1 / 10 ^ 15)) (1 / 100) 1 3 2 ∧ 0 < flMpi (offMath (1 / 10 ^ 15)) (1 / 100) 1 3 2) :=
  C136_improvement (accurate_off (by norm_num)) (by norm_num) (by norm_num) _ _ _ _

end GPyOpt.Props
