import Verif.Model.Sobol
import Mathlib.MeasureTheory.Integral.Pi
import Mathlib.Probability.ConditionalProbability
import Mathlib.Analysis.SpecialFunctions.Integrals.Basic

/-!
# C164: the sensitivity coefficients of gSobol

The specification: `firstOrder ν f i` is the share of the variance of `f` that is explained by the variable `i`, if all variables
are independent with the distribution `ν`.
-/

namespace GPyOpt.Props

open GPyOpt MeasureTheory

/-- The variance of a function. -/
noncomputable def spread {α : Type*} [MeasurableSpace α] (μ : Measure α) (f : α → ℝ) : ℝ :=
  ∫ x, (f x - ∫ y, f y ∂μ) ^ 2 ∂μ

/-- First order sensitivity index: the variance of the mean of `f` given the variable `i`, divided by the variance of `f`. -/
noncomputable def firstOrder {d : Nat} (ν : Measure ℝ) (f : (Fin d → ℝ) → ℝ) (i : Fin d) : ℝ :=
  spread ν (fun t => ∫ x, f (Function.update x i t) ∂(Measure.pi fun _ => ν)) / spread (Measure.pi fun _ => ν) f

/-- The uniform distribution on an interval. -/
noncomputable def uniform (l u : ℝ) : Measure ℝ := ProbabilityTheory.cond volume (Set.Icc l u)

theorem spread_eq {α : Type*} [MeasurableSpace α] (μ : Measure α) [IsProbabilityMeasure μ] {f : α → ℝ}
    (h1 : Integrable f μ) (h2 : Integrable (fun x => f x ^ 2) μ) :
    spread μ f = ∫ x, f x ^ 2 ∂μ - (∫ x, f x ∂μ) ^ 2 := by
  unfold spread
  set m := ∫ x, f x ∂μ with hm
  have e : (fun x => (f x - m) ^ 2) = fun x => f x ^ 2 - (2 * m) * f x + m ^ 2 := by
    funext x; ring
  have h3 : Integrable (fun x => f x ^ 2 - (2 * m) * f x) μ := h2.sub (h1.const_mul _)
  rw [e, integral_add h3 (integrable_const _), integral_sub h2 (h1.const_mul _), integral_const_mul, ← hm]
  simp
  ring

/-- The index of a product of functions of one variable each. -/
theorem firstOrder_prod {d : Nat} (ν : Measure ℝ) [IsProbabilityMeasure ν] (g : Fin d → ℝ → ℝ)
    (h1 : ∀ i, Integrable (g i) ν) (h2 : ∀ i, Integrable (fun t => g i t ^ 2) ν) (i : Fin d) :
    firstOrder ν (fun x => ∏ j, g j (x j)) i =
      (∏ j ∈ Finset.univ.erase i, ∫ t, g j t ∂ν) ^ 2 * (∫ t, g i t ^ 2 ∂ν - (∫ t, g i t ∂ν) ^ 2) /
        (∏ j, ∫ t, g j t ^ 2 ∂ν - (∏ j, ∫ t, g j t ∂ν) ^ 2) := by
  have hc : ∀ t, ∫ x, ∏ j, g j (Function.update x i t j) ∂(Measure.pi fun _ : Fin d => ν) =
      (∏ j ∈ Finset.univ.erase i, ∫ t, g j t ∂ν) * g i t := by
    intro t
    have e : ∀ x : Fin d → ℝ, ∏ j, g j (Function.update x i t j) =
        ∏ j, (fun j s => if j = i then g i t else g j s) j (x j) := by
      intro x
      refine Finset.prod_congr rfl fun j _ => ?_
      by_cases hj : j = i
      · subst hj; simp
      · simp [hj]
    simp only [e]
    rw [integral_fintype_prod_eq_prod (μ := fun _ => ν) (fun j s => if j = i then g i t else g j s),
      ← Finset.prod_erase_mul _ _ (Finset.mem_univ i)]
    congr 1
    · refine Finset.prod_congr rfl fun j hj => ?_
      simp [Finset.ne_of_mem_erase hj]
    · simp
  have hf1 : Integrable (fun x : Fin d → ℝ => ∏ j, g j (x j)) (Measure.pi fun _ => ν) := Integrable.fintype_prod h1
  have hf2 : Integrable (fun x : Fin d → ℝ => (∏ j, g j (x j)) ^ 2) (Measure.pi fun _ => ν) := by
    simp only [← Finset.prod_pow]
    exact Integrable.fintype_prod h2
  unfold firstOrder
  simp only [hc]
  rw [spread_eq _ hf1 hf2, spread_eq _ ((h1 i).const_mul _) (by simp only [mul_pow]; exact (h2 i).const_mul _)]
  simp only [← Finset.prod_pow, mul_pow]
  rw [integral_fintype_prod_eq_prod (μ := fun _ => ν) (fun j s => g j s ^ 2),
    integral_fintype_prod_eq_prod (μ := fun _ => ν) g, integral_const_mul, integral_const_mul]
  simp only [Finset.prod_pow]
  congr 1
  ring

theorem uniform_prob {l u : ℝ} (h : l < u) : IsProbabilityMeasure (uniform l u) := by
  refine ProbabilityTheory.cond_isProbabilityMeasure_of_finite ?_ ?_
  · rw [Real.volume_Icc]; simp [h]
  · rw [Real.volume_Icc]; simp

theorem uniform_integral {l u : ℝ} (h : l < u) (f : ℝ → ℝ) : ∫ t, f t ∂(uniform l u) = (∫ t in l..u, f t) / (u - l) := by
  unfold uniform ProbabilityTheory.cond
  rw [integral_smul_measure, Real.volume_Icc, intervalIntegral.integral_of_le h.le, integral_Icc_eq_integral_Ioc,
    ENNReal.toReal_inv, ENNReal.toReal_ofReal (by linarith), smul_eq_mul]
  field_simp

theorem uniform_integrable {l u : ℝ} (h : l < u) {f : ℝ → ℝ} (hf : Continuous f) : Integrable f (uniform l u) := by
  unfold uniform ProbabilityTheory.cond
  refine Integrable.smul_measure (hf.integrableOn_Icc) ?_
  rw [Real.volume_Icc]
  simp [h]

/-- Mean and second moment of `|4 t - 2|`. -/
theorem uniform_abs {l u : ℝ} (hl : l ≤ 1 / 2) (hu : 1 / 2 ≤ u) (h : l < u) :
    ∫ t, |4 * t - 2| ∂(uniform l u) = (2 * (u - 1 / 2) ^ 2 + 2 * (1 / 2 - l) ^ 2) / (u - l) ∧
    ∫ t, |4 * t - 2| ^ 2 ∂(uniform l u) = 16 / 3 * ((u - 1 / 2) ^ 3 + (1 / 2 - l) ^ 3) / (u - l) := by
  have hc : Continuous fun t : ℝ => |4 * t - 2| := by fun_prop
  constructor
  · rw [uniform_integral h, ← intervalIntegral.integral_add_adjacent_intervals (b := 1 / 2)
      (hc.intervalIntegrable _ _) (hc.intervalIntegrable _ _)]
    have e1 : ∫ t in l..(1 / 2), |4 * t - 2| = ∫ t in l..(1 / 2), (2 - 4 * t) := by
      refine intervalIntegral.integral_congr fun t ht => ?_
      rw [Set.uIcc_of_le hl] at ht
      have := ht.2
      show |4 * t - 2| = 2 - 4 * t
      rw [abs_of_nonpos (by linarith)]; ring
    have e2 : ∫ t in (1 / 2)..u, |4 * t - 2| = ∫ t in (1 / 2)..u, (4 * t - 2) := by
      refine intervalIntegral.integral_congr fun t ht => ?_
      rw [Set.uIcc_of_le hu] at ht
      have := ht.1
      show |4 * t - 2| = 4 * t - 2
      rw [abs_of_nonneg (by linarith)]
    rw [e1, e2, intervalIntegral.integral_sub (Continuous.intervalIntegrable (by fun_prop) _ _) (Continuous.intervalIntegrable (by fun_prop) _ _),
      intervalIntegral.integral_sub (Continuous.intervalIntegrable (by fun_prop) _ _) (Continuous.intervalIntegrable (by fun_prop) _ _), intervalIntegral.integral_const_mul,
      intervalIntegral.integral_const_mul, integral_id, integral_id, intervalIntegral.integral_const,
      intervalIntegral.integral_const]
    simp only [smul_eq_mul]
    congr 1
    ring
  · rw [uniform_integral h]
    congr 1
    have e : (fun t : ℝ => |4 * t - 2| ^ 2) = fun t => 16 * t ^ 2 - 16 * t + 4 := by
      funext t; rw [sq_abs]; ring
    rw [e, intervalIntegral.integral_add (Continuous.intervalIntegrable (by fun_prop) _ _) (Continuous.intervalIntegrable (by fun_prop) _ _),
      intervalIntegral.integral_sub (Continuous.intervalIntegrable (by fun_prop) _ _) (Continuous.intervalIntegrable (by fun_prop) _ _),
      intervalIntegral.integral_const_mul, intervalIntegral.integral_const_mul, integral_id, integral_pow,
      intervalIntegral.integral_const]
    simp only [smul_eq_mul]
    push_cast
    ring

/-- Mean and second moment of a factor, from those of `|4 t - 2|`. -/
theorem factor_moments {l u : ℝ} (h : l < u) (a : ℝ) :
    ∫ t, (|4 * t - 2| + a) / (1 + a) ∂(uniform l u) = (∫ t, |4 * t - 2| ∂(uniform l u) + a) / (1 + a) ∧
    ∫ t, ((|4 * t - 2| + a) / (1 + a)) ^ 2 ∂(uniform l u) =
      (∫ t, |4 * t - 2| ^ 2 ∂(uniform l u) + 2 * a * ∫ t, |4 * t - 2| ∂(uniform l u) + a ^ 2) / (1 + a) ^ 2 := by
  have := uniform_prob h
  have i1 : Integrable (fun t : ℝ => |4 * t - 2|) (uniform l u) := uniform_integrable h (by fun_prop)
  have i2 : Integrable (fun t : ℝ => |4 * t - 2| ^ 2) (uniform l u) := uniform_integrable h (by fun_prop)
  constructor
  · rw [integral_div, integral_add i1 (integrable_const _)]
    simp
  · have e : (fun t : ℝ => ((|4 * t - 2| + a) / (1 + a)) ^ 2) =
        fun t => (|4 * t - 2| ^ 2 + 2 * a * |4 * t - 2| + a ^ 2) / (1 + a) ^ 2 := by
      funext t; rw [div_pow]; ring
    have i3 : Integrable (fun t : ℝ => |4 * t - 2| ^ 2 + 2 * a * |4 * t - 2|) (uniform l u) := i2.add (i1.const_mul _)
    rw [e, integral_div, integral_add i3 (integrable_const _), integral_add i2 (i1.const_mul _), integral_const_mul]
    simp

/-- The index of gSobol for independent variables that are uniform on an interval. -/
theorem firstOrder_gSobol {l u : ℝ} (h : l < u) {d : Nat} {a : Fin d → ℝ} (ha : ∀ i, 0 < a i) (i : Fin d) :
    firstOrder (uniform l u) (gSobolF a) i =
      (∏ j ∈ Finset.univ.erase i, (∫ t, |4 * t - 2| ∂(uniform l u) + a j) / (1 + a j)) ^ 2 *
        ((∫ t, |4 * t - 2| ^ 2 ∂(uniform l u) - (∫ t, |4 * t - 2| ∂(uniform l u)) ^ 2) / (1 + a i) ^ 2) /
        spread (Measure.pi fun _ => uniform l u) (gSobolF a) ∧
    spread (Measure.pi fun _ => uniform l u) (gSobolF a) =
      ∏ j, (∫ t, |4 * t - 2| ^ 2 ∂(uniform l u) + 2 * a j * ∫ t, |4 * t - 2| ∂(uniform l u) + a j ^ 2) / (1 + a j) ^ 2 -
        (∏ j, (∫ t, |4 * t - 2| ∂(uniform l u) + a j) / (1 + a j)) ^ 2 := by
  have := uniform_prob h
  have h1 : ∀ j, Integrable (fun t : ℝ => (|4 * t - 2| + a j) / (1 + a j)) (uniform l u) :=
    fun j => uniform_integrable h (by fun_prop)
  have h2 : ∀ j, Integrable (fun t : ℝ => ((|4 * t - 2| + a j) / (1 + a j)) ^ 2) (uniform l u) :=
    fun j => uniform_integrable h (by fun_prop)
  have hs : spread (Measure.pi fun _ => uniform l u) (gSobolF a) =
      ∏ j, (∫ t, |4 * t - 2| ^ 2 ∂(uniform l u) + 2 * a j * ∫ t, |4 * t - 2| ∂(uniform l u) + a j ^ 2) / (1 + a j) ^ 2 -
        (∏ j, (∫ t, |4 * t - 2| ∂(uniform l u) + a j) / (1 + a j)) ^ 2 := by
    unfold gSobolF
    rw [spread_eq _ (Integrable.fintype_prod h1) (by simp only [← Finset.prod_pow]; exact Integrable.fintype_prod h2)]
    simp only [← Finset.prod_pow (n := 2)]
    rw [integral_fintype_prod_eq_prod (μ := fun _ => uniform l u) (fun j t => ((|4 * t - 2| + a j) / (1 + a j)) ^ 2),
      integral_fintype_prod_eq_prod (μ := fun _ => uniform l u) (fun j t => (|4 * t - 2| + a j) / (1 + a j))]
    simp only [(factor_moments h (a _)).1, (factor_moments h (a _)).2, Finset.prod_pow]
  refine ⟨?_, hs⟩
  rw [hs]
  have := firstOrder_prod (uniform l u) (fun j t => (|4 * t - 2| + a j) / (1 + a j)) h1 h2 i
  simp only [(factor_moments h (a _)).1, (factor_moments h (a _)).2] at this
  unfold gSobolF
  rw [this]
  congr 2
  have := ha i
  field_simp
  ring

/-- **C164 (partial: the unit cube).** The coefficients that the object states are the first order sensitivity indices of its
function, for every number of variables and all coefficients that the constructor accepts, if the variables are uniform on
the unit interval. -/
theorem C164_unit_cube_partial {d : Nat} {a : Fin d → ℝ} {bounds : Option (Fin d → ℝ × ℝ)} {b : Fin d → ℝ × ℝ}
    {S : Fin d → ℝ} (h : gSobolInit a bounds = .ok (b, S)) (i : Fin d) :
    S i = firstOrder (uniform 0 1) (gSobolF a) i := by
  unfold gSobolInit at h
  split_ifs at h with ha
  cases h
  obtain ⟨m1, m2⟩ := uniform_abs (l := 0) (u := 1) (by norm_num) (by norm_num) (by norm_num)
  obtain ⟨e1, e2⟩ := firstOrder_gSobol (l := 0) (u := 1) (by norm_num) ha i
  rw [e1, e2, m1, m2]
  have hm : ∀ j, ((2 * ((1 : ℝ) - 1 / 2) ^ 2 + 2 * (1 / 2 - 0) ^ 2) / (1 - 0) + a j) / (1 + a j) = 1 := fun j => by
    have := ha j
    rw [div_eq_one_iff_eq (by linarith)]
    norm_num
  have hq : ∀ j, (16 / 3 * (((1 : ℝ) - 1 / 2) ^ 3 + (1 / 2 - 0) ^ 3) / (1 - 0) +
      2 * a j * ((2 * ((1 : ℝ) - 1 / 2) ^ 2 + 2 * (1 / 2 - 0) ^ 2) / (1 - 0)) + a j ^ 2) / (1 + a j) ^ 2 =
        1 + 1 / (3 * (1 + a j) ^ 2) := fun j => by
    have := ha j
    field_simp
    ring
  simp only [hm, hq, Finset.prod_const_one, one_pow, one_mul]
  unfold gSobolCoef
  congr 1
  have := ha i
  field_simp
  ring

/-- **C164.** On every interval the coefficients of the object order the variables by their importance: a variable with a
larger coefficient `S` has at least the sensitivity of the other one. -/
theorem C164_ranking {d : Nat} {a : Fin d → ℝ} {bounds : Option (Fin d → ℝ × ℝ)} {b : Fin d → ℝ × ℝ}
    {S : Fin d → ℝ} (h : gSobolInit a bounds = .ok (b, S)) {l u : ℝ} (hlu : l < u) (i j : Fin d) (hij : S j ≤ S i) :
    firstOrder (uniform l u) (gSobolF a) j ≤ firstOrder (uniform l u) (gSobolF a) i := by
  unfold gSobolInit at h
  split_ifs at h with ha
  cases h
  have := uniform_prob hlu
  -- the larger coefficient belongs to the smaller `a`
  have haij : a i ≤ a j := by
    by_contra hlt
    rw [not_le] at hlt
    have hpos : 0 < ∏ k, (1 + 1 / (3 * (1 + a k) ^ 2)) - 1 := by
      have hk : ∀ k, 1 < 1 + 1 / (3 * (1 + a k) ^ 2) := fun k => by
        have := ha k
        have : 0 < 1 / (3 * (1 + a k) ^ 2) := by positivity
        linarith
      rw [← Finset.mul_prod_erase _ _ (Finset.mem_univ i)]
      have h1 : 1 ≤ ∏ k ∈ Finset.univ.erase i, (1 + 1 / (3 * (1 + a k) ^ 2)) :=
        Finset.prod_induction _ (fun v => 1 ≤ v) (fun v w hv hw => one_le_mul_of_one_le_of_one_le hv hw) le_rfl
          fun k _ => (hk k).le
      nlinarith [hk i]
    have hlt' : 1 / (3 * (1 + a i) ^ 2) < 1 / (3 * (1 + a j) ^ 2) := by
      have h1 := ha j
      apply one_div_lt_one_div_of_lt (by positivity)
      nlinarith
    have : gSobolCoef a i < gSobolCoef a j := div_lt_div_of_pos_right hlt' hpos
    exact absurd hij (not_le.2 this)
  obtain ⟨e1, -⟩ := firstOrder_gSobol hlu ha i
  obtain ⟨e2, -⟩ := firstOrder_gSobol hlu ha j
  rw [e1, e2]
  set m := ∫ t, |4 * t - 2| ∂(uniform l u) with hm
  have hm0 : 0 ≤ m := integral_nonneg fun t => abs_nonneg _
  have hv : 0 ≤ ∫ t, |4 * t - 2| ^ 2 ∂(uniform l u) - m ^ 2 := by
    rw [← spread_eq (uniform l u) (f := fun t => |4 * t - 2|) (uniform_integrable hlu (by fun_prop))
      (uniform_integrable hlu (by fun_prop))]
    exact integral_nonneg fun t => sq_nonneg _
  refine div_le_div_of_nonneg_right ?_ (integral_nonneg fun t => sq_nonneg _)
  have hk : ∀ k, (∏ c ∈ Finset.univ.erase k, (m + a c) / (1 + a c)) ^ 2 *
      ((∫ t, |4 * t - 2| ^ 2 ∂(uniform l u) - m ^ 2) / (1 + a k) ^ 2) =
        (∏ c, (m + a c) / (1 + a c)) ^ 2 * (∫ t, |4 * t - 2| ^ 2 ∂(uniform l u) - m ^ 2) / (m + a k) ^ 2 := by
    intro k
    have h1 := ha k
    have h2 : 0 < m + a k := by linarith
    rw [← Finset.mul_prod_erase Finset.univ (fun c => (m + a c) / (1 + a c)) (Finset.mem_univ k)]
    field_simp
  rw [hk, hk]
  have h1 := ha i
  refine div_le_div_of_nonneg_left (by positivity) (by positivity) ?_
  nlinarith

/-- **C164, negation.** On the bounds that the object has by default they are not: with the coefficients 1 and 2 the first
variable explains less than half of the variance, the object states more than two thirds. -/
theorem C164_default_bounds_counterexample :
    ∃ S, gSobolInit ![1, 2] none = .ok (fun _ => (-4, 6), S) ∧ 2 / 3 < S 0 ∧
      firstOrder (uniform (-4) 6) (gSobolF ![1, 2]) 0 < 1 / 2 := by
  have ha : ∀ i, 0 < (![1, 2] : Fin 2 → ℝ) i := by
    intro i; fin_cases i <;> norm_num
  refine ⟨gSobolCoef ![1, 2], by simp only [gSobolInit, if_pos ha]; rfl, ?_, ?_⟩
  · unfold gSobolCoef
    rw [Fin.prod_univ_two]
    norm_num
  · obtain ⟨m1, m2⟩ := uniform_abs (l := -4) (u := 6) (by norm_num) (by norm_num) (by norm_num)
    obtain ⟨e1, e2⟩ := firstOrder_gSobol (l := -4) (u := 6) (by norm_num) ha 0
    have he : (Finset.univ : Finset (Fin 2)).erase 0 = {1} := by decide
    rw [e1, e2, m1, m2, he, Finset.prod_singleton, Fin.prod_univ_two, Fin.prod_univ_two]
    norm_num

/-- **C164, negation.** Coefficients that are not all positive are not answered with the message of the code, but with a
`TypeError`; coefficients are accepted exactly if they are positive. -/
theorem C164_refused {d : Nat} (a : Fin d → ℝ) (bounds : Option (Fin d → ℝ × ℝ)) :
    ((∃ r, gSobolInit a bounds = .ok r) ↔ ∀ i, 0 < a i) ∧
      ((∃ i, a i ≤ 0) → gSobolInit a bounds = .error .typeError) := by
  unfold gSobolInit
  constructor
  · split_ifs with h
    · simp [h]
    · simp [h]
  · rintro ⟨i, hi⟩
    rw [if_neg fun h => absurd (h i) (not_lt.2 hi)]

/-- The constructor accepts coefficients for which the theorems say something: the first of two variables is more important. -/
example : ∃ b S, gSobolInit ![(1 : ℝ), 2] none = .ok (b, S) ∧ S 1 < S 0 := by
  have ha : ∀ i, 0 < (![1, 2] : Fin 2 → ℝ) i := by
    intro i; fin_cases i <;> norm_num
  refine ⟨_, gSobolCoef ![1, 2], by simp only [gSobolInit, if_pos ha]; rfl, ?_⟩
  unfold gSobolCoef
  rw [Fin.prod_univ_two]
  norm_num

end GPyOpt.Props
