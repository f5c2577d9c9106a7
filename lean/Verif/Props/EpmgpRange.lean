import Verif.Props.EpmgpExact
import Verif.Lemmas.Mills

/-!
# The belief over two points is exact up to rounding in an explicit range (C86)

`C86_two_points_partial` has a hypothesis about the message. Here it is derived from the variance of the difference
and the standardized difference, and the regularization of the variance is bounded.
-/

namespace GPyOpt.Props

open Matrix Set
open GPyOpt.Spec

/-- The ratio `e` and the reduction of the variance for a standardized difference `z`. -/
theorem ratio_facts (z : ℝ) :
    let e := npdf z / ncdf z
    0 < e ∧ npdf z ≤ e ∧ 0 < e + z ∧ e * (e + z) < 1 ∧ (z ≤ 0 → 1 / 2 ≤ e * (e + z)) ∧
      (0 ≤ z → e * (e + z) ≤ 2 / 3) := by
  intro e
  have hC := ncdf_pos z
  have hP := npdf_pos z
  have hee : npdf z = e * ncdf z := by
    change npdf z = npdf z / ncdf z * ncdf z
    field_simp
  have he0 : 0 < e := div_pos hP hC
  have hq : 0 < ncdf z ^ 2 := by positivity
  refine ⟨he0, ?_, ?_, ?_, ?_, ?_⟩
  · rw [hee]
    have := ncdf_le_one z
    nlinarith
  · have h1 := std_improvement_pos z
    rw [hee, show z * ncdf z + e * ncdf z = (e + z) * ncdf z by ring] at h1
    exact pos_of_mul_pos_left h1 hC.le
  · have h1 := truncated_variance_pos z
    rw [hee, show ncdf z ^ 2 - e * ncdf z * (z * ncdf z + e * ncdf z) = (1 - e * (e + z)) * ncdf z ^ 2 by ring] at h1
    have := pos_of_mul_pos_left h1 (sq_nonneg _)
    linarith
  · intro hz
    have h1 := reduction_ge_half hz
    rw [hee, show 2 * (e * ncdf z * (e * ncdf z + z * ncdf z)) = 2 * (e * (e + z)) * ncdf z ^ 2 by ring] at h1
    have h2 : 1 * ncdf z ^ 2 ≤ 2 * (e * (e + z)) * ncdf z ^ 2 := by linarith
    have := le_of_mul_le_mul_right h2 hq
    linarith
  · intro hz
    have h1 := reduction_le_two_thirds hz
    rw [hee, show e * ncdf z * (e * ncdf z + z * ncdf z) = e * (e + z) * ncdf z ^ 2 by ring] at h1
    exact le_of_mul_le_mul_right h1 hq

/-- The effect of the regularization `1e-25` on a standardized difference. -/
theorem regularized_ratio {v : ℝ} (hv : 0 < v) :
    1 ≤ √(v + 1 / 10 ^ 25) / √v ∧ √(v + 1 / 10 ^ 25) / √v ≤ 1 + 1 / 10 ^ 25 / (2 * v) := by
  have hs : 0 < √v := Real.sqrt_pos.2 hv
  have he : (0 : ℝ) < 1 / 10 ^ 25 := by positivity
  generalize (1 : ℝ) / 10 ^ 25 = ep at *
  constructor
  · rw [le_div_iff₀ hs, one_mul]
    exact Real.sqrt_le_sqrt (by linarith)
  · rw [div_le_iff₀ hs, Real.sqrt_le_left (by positivity)]
    have h1 : ((1 + ep / (2 * v)) * √v) ^ 2 = v + ep + ep ^ 2 / (4 * v) := by
      rw [mul_pow, Real.sq_sqrt hv.le]
      field_simp
      ring
    rw [h1]
    have : 0 ≤ ep ^ 2 / (4 * v) := by positivity
    linarith

/-- The reduction of the variance in the range, with the standardized difference scaled by the regularization. -/
theorem reduction_range {z rho : ℝ} (hz1 : -6 ≤ z) (hz2 : z ≤ 5) (r1 : 1 ≤ rho) (r2 : rho ≤ 1 + 1 / 10 ^ 5) :
    let e := npdf z / ncdf z
    12 / 10 ^ 7 ≤ e * (e + z * rho) ∧ e * (e + z * rho) < 1 ∧ 0 ≤ e + z * rho ∧ 5 / 10 ^ 7 ≤ e := by
  intro e
  obtain ⟨he0, heP, hez, hb1, hbl, hbu⟩ := ratio_facts z
  change 0 < e at he0
  change npdf z ≤ e at heP
  change 0 < e + z at hez
  change e * (e + z) < 1 at hb1
  change z ≤ 0 → 1 / 2 ≤ e * (e + z) at hbl
  change 0 ≤ z → e * (e + z) ≤ 2 / 3 at hbu
  clear_value e
  generalize hw : z * rho = w
  rcases le_or_gt z 0 with hz0 | hz0
  · have hb := hbl hz0
    have hez1 : e + z < 1 := by
      by_contra hc
      push Not at hc
      have : (e + z) * (e + z) ≤ e * (e + z) := mul_le_mul_of_nonneg_right (by linarith) hez.le
      nlinarith
    have he7 : e < 7 := by linarith
    have hwz : w ≤ z := by
      rw [← hw]
      nlinarith
    have hwl : z - 6 / 10 ^ 5 ≤ w := by
      have h3 : (-z) * (rho - 1) ≤ 6 * (1 / 10 ^ 5) :=
        mul_le_mul (by linarith) (by linarith) (by linarith) (by norm_num)
      rw [← hw]
      linarith
    have hemul : e * (z - w) ≤ 7 * (6 / 10 ^ 5) := mul_le_mul he7.le (by linarith) (by linarith) (by norm_num)
    have h14 : 1 / 14 ≤ e + z := by
      by_contra hc
      push Not at hc
      have : e * (e + z) < 7 * (1 / 14) := mul_lt_mul'' he7 hc he0.le hez.le
      linarith
    have hsplit : e * (e + w) = e * (e + z) - e * (z - w) := by ring
    have hle : 0 ≤ e * (z - w) := mul_nonneg he0.le (by linarith)
    refine ⟨?_, ?_, by linarith, by linarith⟩
    · rw [hsplit]
      linarith
    · rw [hsplit]
      linarith
  · have hb := hbu hz0.le
    have hwz : z ≤ w := by
      rw [← hw]
      nlinarith
    have hwu : w ≤ z + 5 / 10 ^ 5 := by
      have h3 : z * (rho - 1) ≤ 5 * (1 / 10 ^ 5) :=
        mul_le_mul hz2 (by linarith) (by linarith) (by norm_num)
      rw [← hw]
      linarith
    have he1 : e < 1 := by
      by_contra hc
      push Not at hc
      have : 1 * 1 ≤ e * (e + z) := mul_le_mul hc (by linarith) (by norm_num) he0.le
      linarith
    have hel : 8 / 10 ^ 7 ≤ e := npdf_five.trans ((npdf_antitone hz0.le hz2).trans heP)
    refine ⟨?_, ?_, by linarith, by linarith⟩
    · rcases le_or_gt z 2 with h | h
      · have h20 : 1 / 20 ≤ e := npdf_two.trans ((npdf_antitone hz0.le h).trans heP)
        have : 1 / 20 * (1 / 20) ≤ e * (e + w) := mul_le_mul h20 (by linarith) (by norm_num) he0.le
        linarith
      · have : 8 / 10 ^ 7 * 2 ≤ e * (e + w) := mul_le_mul hel (by linarith) (by norm_num) he0.le
        linarith
    · have h5 : e * (e + w) = e * (e + z) + e * (w - z) := by ring
      have h6 : e * (w - z) ≤ 1 * (5 / 10 ^ 5) := mul_le_mul he1.le (by linarith) (by linarith) (by norm_num)
      rw [h5]
      linarith

/-- A message whose reduction of the variance is in this range is kept. -/
theorem message_kept_of_reduction {e w v : ℝ} (hv : 0 < v) (h2 : v ≤ 10) (hb1 : 12 / 10 ^ 7 ≤ e * (e + w))
    (hb2 : e * (e + w) < 1) (hew : 0 ≤ e + w) (hel : 5 / 10 ^ 7 ≤ e) :
    epEps ≤ (ltMessage e (w * √v) v).2.1 ∧ epEps ≤ (ltMessage e (w * √v) v).2.2 := by
  have hs : 0 < √v := Real.sqrt_pos.2 hv
  have hvv : √v * √v = v := Real.mul_self_sqrt hv.le
  have hs4 : √v ≤ 4 := by
    rw [Real.sqrt_le_left (by norm_num)]
    linarith
  have hbeta : (ltMessage e (w * √v) v).1 = e * (e + w) := by
    change e / √v * (e / √v * v + w * √v) = _
    have : e / √v * v = e * √v := by
      nth_rewrite 2 [← hvv]
      field_simp
    rw [this]
    field_simp
  have hp : (ltMessage e (w * √v) v).2.1 = e * (e + w) / (1 - e * (e + w)) / v := by rw [← hbeta]; rfl
  have hmp : (ltMessage e (w * √v) v).2.2 = e * (e + w) / (1 - e * (e + w)) * ((e + w) / √v) + e / √v := by
    rw [← hbeta]
    change (ltMessage e (w * √v) v).1 / (1 - (ltMessage e (w * √v) v).1) * (e / √v + w * √v / v) + e / √v = _
    have : e / √v + w * √v / v = (e + w) / √v := by
      nth_rewrite 3 [← hvv]
      field_simp
    rw [this]
  have heps : epEps ≤ 12 / 10 ^ 8 := by unfold epEps; norm_num
  have hr : 12 / 10 ^ 7 ≤ e * (e + w) / (1 - e * (e + w)) := by
    rw [le_div_iff₀ (by linarith)]
    generalize e * (e + w) = b at *
    have h6 : (12 : ℝ) / 10 ^ 7 * (1 - b) ≤ 12 / 10 ^ 7 * 1 := mul_le_mul_of_nonneg_left (by linarith) (by positivity)
    linarith
  rw [hp, hmp]
  constructor
  · rw [le_div_iff₀ hv]
    have : epEps * v ≤ 12 / 10 ^ 8 * 10 := mul_le_mul heps h2 hv.le (by positivity)
    refine this.trans (le_trans (by norm_num) hr)
  · have h8 : 0 ≤ e * (e + w) / (1 - e * (e + w)) * ((e + w) / √v) :=
      mul_nonneg (le_trans (by positivity) hr) (div_nonneg hew hs.le)
    have h9 : 12 / 10 ^ 8 ≤ e / √v := by
      rw [le_div_iff₀ hs]
      have : (12 : ℝ) / 10 ^ 8 * √v ≤ 12 / 10 ^ 8 * 4 := mul_le_mul_of_nonneg_left hs4 (by positivity)
      refine this.trans (le_trans (by norm_num) hel)
    linarith

/-- The message is kept if the variance of the difference is between `1e-20` and 20 and the standardized difference
between -6 and 5. -/
theorem message_range {m v : ℝ} (h1 : 1 / 10 ^ 20 / 2 ≤ v) (h2 : v ≤ 10)
    (hz1 : -6 ≤ m / √(v + 1 / 10 ^ 25)) (hz2 : m / √(v + 1 / 10 ^ 25) ≤ 5) :
    let z := m / √(v + 1 / 10 ^ 25)
    let msg := ltMessage (npdf z / ncdf z) m v
    epEps ≤ msg.2.1 ∧ epEps ≤ msg.2.2 := by
  have hv : 0 < v := lt_of_lt_of_le (by positivity) h1
  have hs : 0 < √v := Real.sqrt_pos.2 hv
  have hsr : 0 < √(v + 1 / 10 ^ 25) := Real.sqrt_pos.2 (by positivity)
  obtain ⟨r1, r2⟩ := regularized_ratio hv
  have r3 : (1 : ℝ) / 10 ^ 25 / (2 * v) ≤ 1 / 10 ^ 5 := by
    rw [div_le_iff₀ (by positivity)]
    have : (1 : ℝ) / 10 ^ 5 * (2 * (1 / 10 ^ 20 / 2)) ≤ 1 / 10 ^ 5 * (2 * v) := by
      refine mul_le_mul_of_nonneg_left ?_ (by positivity)
      linarith
    refine le_trans ?_ this
    norm_num
  obtain ⟨b1, b2, b3, b4⟩ := reduction_range hz1 hz2 r1 (r2.trans (by linarith))
  have hm : m = m / √(v + 1 / 10 ^ 25) * (√(v + 1 / 10 ^ 25) / √v) * √v := by
    field_simp
  have := message_kept_of_reduction hv h2 b1 b2 b3 b4
  rw [← hm] at this
  exact this

theorem hasDerivAt_ratio (z : ℝ) :
    HasDerivAt (fun z => npdf z / ncdf z) (-(npdf z / ncdf z * (npdf z / ncdf z + z))) z := by
  have hC := (ncdf_pos z).ne'
  have := (hasDerivAt_npdf z).div (hasDerivAt_ncdf z) hC
  refine this.congr_deriv ?_
  field_simp
  ring

/-- The ratio of density and distribution function is Lipschitz. -/
theorem ratio_lipschitz (a b : ℝ) : |npdf a / ncdf a - npdf b / ncdf b| ≤ |a - b| := by
  have := Convex.norm_image_sub_le_of_norm_hasDerivWithin_le (f := fun z => npdf z / ncdf z)
    (f' := fun z => -(npdf z / ncdf z * (npdf z / ncdf z + z))) (C := 1) (s := univ)
    (x := b) (y := a) (fun x _ => (hasDerivAt_ratio x).hasDerivWithinAt)
    (fun x _ => by
      obtain ⟨h0, _, h1, h2, _, _⟩ := ratio_facts x
      rw [Real.norm_eq_abs, abs_neg, abs_of_pos (mul_pos h0 h1)]
      exact h2.le) convex_univ
    (mem_univ _) (mem_univ _)
  simpa [Real.norm_eq_abs] using this

theorem ratio_le {z : ℝ} (hz : -7 ≤ z) : npdf z / ncdf z ≤ 8 := by
  obtain ⟨h0, _, h1, h2, _, _⟩ := ratio_facts z
  generalize npdf z / ncdf z = e at *
  by_contra hc
  push Not at hc
  have : 1 * 1 ≤ e * (e + z) := mul_le_mul (by linarith) (by linarith) (by norm_num) h0.le
  linarith

/-- **C85.** One step whose cavity has a variance `v` between `5e-21` and 10 and a mean `m` between -6 and 5
deviations: it succeeds, changes the message `i` only, and the cavity times the new message has the variance and the
mean of the truncated cavity, up to `7e-24` and `3e-25 / √v`. -/
theorem C85_step_range {n : Nat} (k : Fin (n + 1)) (st : EPState n) (i : Fin n) (v m : ℝ)
    (hcav : ltCavity (ltcVc k (k.succAbove i) st.V) (ltcM k (k.succAbove i) st.M) (st.MP i) (st.P i) = (v, m))
    (h1 : 1 / 10 ^ 20 / 2 ≤ v) (h2 : v ≤ 10) (hz1 : -6 ≤ m / √v) (hz2 : m / √v ≤ 5) :
    ∃ st' d, epStep k 1 st i = some (st', d) ∧
      (∀ j, j ≠ i → st'.P j = st.P j ∧ st'.MP j = st.MP j) ∧ 0 < 1 / v + st'.P i ∧
      |1 / (1 / v + st'.P i) - truncatedVar m √v| ≤ 7 / 10 ^ 24 ∧
      |(m / v + st'.MP i) / (1 / v + st'.P i) - truncatedMean m √v| ≤ 3 / 10 ^ 25 / √v := by
  have hv : 0 < v := lt_of_lt_of_le (by positivity) h1
  have hs : 0 < √v := Real.sqrt_pos.2 hv
  have hvv : √v * √v = v := Real.mul_self_sqrt hv.le
  have hsr : 0 < √(v + 1 / 10 ^ 25) := Real.sqrt_pos.2 (by positivity)
  obtain ⟨r1, r2⟩ := regularized_ratio hv
  set rho := √(v + 1 / 10 ^ 25) / √v with hrho
  set w := m / √v with hw
  set z := m / √(v + 1 / 10 ^ 25) with hz
  have hwz : w = z * rho := by
    rw [hw, hz, hrho]
    field_simp
  have hrho0 : 0 < rho := by linarith
  have hz6 : -6 ≤ z := by
    by_contra hc
    push Not at hc
    rw [hwz] at hz1
    nlinarith
  have hz5 : z ≤ 5 := by
    by_contra hc
    push Not at hc
    rw [hwz] at hz2
    nlinarith
  have hdist : |z - w| ≤ 3 / 10 ^ 25 / v := by
    rw [hwz, show z - z * rho = z * (1 - rho) by ring, abs_mul, abs_sub_comm 1 rho,
      abs_of_nonneg (by linarith : 0 ≤ rho - 1)]
    have h6 : |z| ≤ 6 := abs_le.2 ⟨hz6, by linarith⟩
    have := mul_le_mul h6 (by linarith : rho - 1 ≤ 1 / 10 ^ 25 / (2 * v)) (by linarith) (by norm_num)
    refine this.trans (le_of_eq ?_)
    field_simp
    norm_num
  obtain ⟨hk1, hk2⟩ := message_range h1 h2 hz6 hz5
  obtain ⟨hstep, _, _⟩ := C85_step_partial k st i
  rw [hcav] at hstep
  obtain ⟨st', d, hst, hP, hMP⟩ := hstep (abs_le.2 ⟨hz6, by linarith⟩) hk1 hk2
  have r3 : (1 : ℝ) / 10 ^ 25 / (2 * v) ≤ 1 / 10 ^ 5 := by
    rw [div_le_iff₀ (by positivity)]
    have : (1 : ℝ) / 10 ^ 5 * (2 * (1 / 10 ^ 20 / 2)) ≤ 1 / 10 ^ 5 * (2 * v) := by
      refine mul_le_mul_of_nonneg_left ?_ (by positivity)
      linarith
    refine le_trans ?_ this
    norm_num
  obtain ⟨_, b2, _, _⟩ := reduction_range hz6 hz5 r1 (r2.trans (by linarith))
  rw [← hwz] at b2
  have hm : m = w * √v := by rw [hw]; field_simp
  have hlip := (ratio_lipschitz z w).trans hdist
  have hez := ratio_le (z := z) (by linarith)
  have hew := ratio_le (z := w) (by linarith)
  obtain ⟨hez0, _, _, _, _, _⟩ := ratio_facts z
  obtain ⟨hew0, _, _, _, _, _⟩ := ratio_facts w
  rw [truncatedVar_eq m √v hs, truncatedMean_eq m √v hs, ← hw]
  simp only [← hz] at hP hMP
  set e := npdf z / ncdf z with he
  set e' := npdf w / ncdf w with he'
  have hbeta : e / √v * (e / √v * v + m) = e * (e + w) := by
    have : e / √v * v = e * √v := by
      nth_rewrite 2 [← hvv]
      field_simp
    rw [this, hm]
    field_simp
  have h1b : 0 < 1 - e * (e + w) := by linarith
  have hPi : st'.P i = e * (e + w) / (1 - e * (e + w)) / v := by
    rw [hP, Function.update_self, ← hbeta]
    rfl
  have hMPi : st'.MP i = e * (e + w) / (1 - e * (e + w)) * (e / √v + m / v) + e / √v := by
    rw [hMP, Function.update_self, ← hbeta]
    rfl
  have hprec : 1 / v + st'.P i = 1 / (v * (1 - e * (e + w))) := by
    rw [hPi]
    field_simp
    ring
  have hmean : m / v + st'.MP i = (e / √v + m / v) / (1 - e * (e + w)) := by
    rw [hMPi]
    field_simp
    ring
  refine ⟨st', d, hst, ?_, ?_, ?_, ?_⟩
  · intro j hj
    rw [hP, hMP, Function.update_of_ne hj, Function.update_of_ne hj]
    exact ⟨rfl, rfl⟩
  · rw [hprec]
    positivity
  · rw [hprec, one_div_one_div, Real.sq_sqrt hv.le,
      show v * (1 - e * (e + w)) - v * (1 - e' * (e' + w)) = v * ((e' - e) * (e + e' + w)) by ring, abs_mul,
      abs_of_pos hv, abs_mul, abs_sub_comm e' e]
    have h3 : |e + e' + w| ≤ 23 := by
      rw [abs_le]
      constructor <;> linarith
    have h4 := mul_le_mul hlip h3 (abs_nonneg _) (by positivity)
    have h5 := mul_le_mul_of_nonneg_left h4 hv.le
    refine h5.trans ?_
    rw [show v * (3 / 10 ^ 25 / v * 23) = 3 / 10 ^ 25 * 23 by field_simp]
    norm_num
  · rw [hprec, hmean]
    have h3 : (e / √v + m / v) / (1 - e * (e + w)) / (1 / (v * (1 - e * (e + w)))) = m + √v * e := by
      have h4 : e / √v * v = √v * e := by
        nth_rewrite 2 [← hvv]
        field_simp
      have : (e / √v + m / v) / (1 - e * (e + w)) / (1 / (v * (1 - e * (e + w)))) = e / √v * v + m := by
        field_simp
      rw [this, h4]
      ring
    rw [h3, show m + √v * e - (m + √v * e') = √v * (e - e') by ring, abs_mul, abs_of_pos hs]
    refine (mul_le_mul_of_nonneg_left hlip hs.le).trans (le_of_eq ?_)
    nth_rewrite 2 [← hvv]
    field_simp

theorem scaled_projections {c : ℝ} :
    ltcVc 0 ((0 : Fin 2).succAbove 0) (c • (1 : RMat 2)) = c ∧
      ltcM 0 ((0 : Fin 2).succAbove 0) (fun _ => (0 : ℝ)) = 0 := by
  have h1 : (1 : RMat 2) 0 ((0 : Fin 2).succAbove 0) = 0 := Matrix.one_apply_ne (Fin.succAbove_ne 0 0).symm
  constructor
  · rw [ltcVc, Matrix.smul_apply, Matrix.smul_apply, Matrix.smul_apply, h1, Matrix.one_apply_eq, Matrix.one_apply_eq,
      smul_eq_mul, smul_eq_mul]
    ring
  · simp [ltcM]

/-- The first step for two independent standard normal values. -/
example : ∃ st' d, epStep (n := 1) 0 1 (epInit (fun _ => 0) 1) 0 = some (st', d) ∧
    |1 / (1 / 1 + st'.P 0) - truncatedVar 0 √1| ≤ 7 / 10 ^ 24 := by
  have hc := cavity_two 0 1 (fun _ => 0) ((1 : ℝ) • 1) (PosDef.one.smul one_pos) _ .init
  rw [scaled_projections.1, (scaled_projections (c := 1)).2, one_smul] at hc
  obtain ⟨st', d, h, _, _, h2, _⟩ := C85_step_range (n := 1) 0 _ 0 1 0 hc (by norm_num) (by norm_num) (by simp)
    (by simp)
  exact ⟨st', d, h, h2⟩

/-- C85 is false below the threshold: the first step for two independent values of mean 0 and variance `1e8` leaves
less than half of the variance of the truncated cavity. -/
theorem C85_threshold_counterexample :
    ∃ st' d, epStep (n := 1) 0 1 (epInit (fun _ => 0) ((10 : ℝ) ^ 8 • 1)) 0 = some (st', d) ∧
      1 / (1 / 10 ^ 8 + st'.P 0) < truncatedVar 0 (10 ^ 4) / 2 := by
  have hS : ((10 : ℝ) ^ 8 • (1 : RMat 2)).PosDef := PosDef.one.smul (by positivity)
  have hz : (0 : ℝ) = ltcM 0 ((0 : Fin 2).succAbove 0) (fun _ => (0 : ℝ))
      / √(ltcVc 0 ((0 : Fin 2).succAbove 0) ((10 : ℝ) ^ 8 • (1 : RMat 2)) + 1 / 10 ^ 25) := by
    rw [(scaled_projections (c := 1)).2, zero_div]
  obtain ⟨st', h, hP, _, _⟩ := epStep_two hS hz (by norm_num) (by norm_num) rfl _ .init
  refine ⟨st', _, h, ?_⟩
  have hge : epEps ≤ st'.P 0 := by
    rw [hP]
    exact le_max_left _ _
  obtain ⟨_, _, _, _, _, hb⟩ := ratio_facts 0
  have hb := hb le_rfl
  rw [truncatedVar_eq 0 (10 ^ 4) (by positivity), zero_div]
  generalize npdf 0 / ncdf 0 = e at *
  have h1 : 1 / (1 / 10 ^ 8 + st'.P 0) ≤ 1 / (1 / 10 ^ 7) := by
    refine one_div_le_one_div_of_le (by positivity) ?_
    unfold epEps at hge
    have : (1 : ℝ) / 10 ^ 7 ≤ 1 / 10 ^ 8 + 1 / 2 ^ 23 := by norm_num
    linarith
  refine h1.trans_lt ?_
  norm_num
  linarith

/-- The variance of the difference of two points. -/
def diffVariance (Sigma : RMat 2) : ℝ := Sigma 1 1 - 2 * Sigma 0 1 + Sigma 0 0

theorem messageKept_range (k : Fin 2) (Mu : RVec 2) (Sigma : RMat 2) (hS : Sigma.PosDef)
    (h1 : 1 / 10 ^ 20 ≤ diffVariance Sigma) (h2 : diffVariance Sigma ≤ 20)
    (hz1 : -6 ≤ (Mu (k.succAbove 0) - Mu k) / diffDeviation k (k.succAbove 0) Sigma)
    (hz2 : (Mu (k.succAbove 0) - Mu k) / diffDeviation k (k.succAbove 0) Sigma ≤ 5) : MessageKept k Mu Sigma := by
  have hsym : Sigma 1 0 = Sigma 0 1 := (isSymm_of_posDef hS).apply 0 1
  have hv : ltcVc k (k.succAbove 0) Sigma = diffVariance Sigma / 2 := by
    unfold ltcVc diffVariance
    fin_cases k
    · rfl
    · change (Sigma 0 0 - 2 * Sigma 1 0 + Sigma 1 1) / 2 = _
      rw [hsym]
      ring
  unfold MessageKept
  rw [← two_z k Mu Sigma] at hz1 hz2 ⊢
  rw [hv] at hz1 hz2 ⊢
  exact message_range (by linarith) (by linarith) hz1 hz2

/-- **C86.** The belief over two points whose difference has a variance between `1e-20` and 20 and a mean of at most
five deviations is the exact probability that the point is the minimum, up to `6e-25` divided by the variance of
the difference. -/
theorem C86_two_points_close (Mu : RVec 2) (Sigma : RMat 2) (hS : Sigma.PosDef)
    (h1 : 1 / 10 ^ 20 ≤ diffVariance Sigma) (h2 : diffVariance Sigma ≤ 20)
    (h5 : |Mu 1 - Mu 0| ≤ 5 * √(diffVariance Sigma)) (k : Fin 2) :
    |Real.exp (jointMin (n := 1) Mu Sigma k) - probNonneg (Mu (k.succAbove 0) - Mu k) √(diffVariance Sigma)|
      ≤ 6 / 10 ^ 25 / diffVariance Sigma := by
  set s := diffVariance Sigma with hsdef
  have hs0 : 0 < s := lt_of_lt_of_le (by positivity) h1
  have hsq : 0 < √s := Real.sqrt_pos.2 hs0
  have hsym : Sigma 1 0 = Sigma 0 1 := (isSymm_of_posDef hS).apply 0 1
  have hdd : ∀ k : Fin 2, diffDeviation k (k.succAbove 0) Sigma = √(s + 2 / 10 ^ 25) := by
    intro k
    unfold diffDeviation
    rw [hsdef, diffVariance]
    congr 1
    fin_cases k
    · rfl
    · change Sigma 0 0 - 2 * Sigma 1 0 + Sigma 1 1 + _ = _
      rw [hsym]
      ring
  have hd0 : 0 < √(s + 2 / 10 ^ 25) := Real.sqrt_pos.2 (by positivity)
  have hds : √s ≤ √(s + 2 / 10 ^ 25) := Real.sqrt_le_sqrt (by linarith [show (0 : ℝ) < 2 / 10 ^ 25 by positivity])
  have habs : ∀ k : Fin 2, |Mu (k.succAbove 0) - Mu k| = |Mu 1 - Mu 0| := by
    intro k
    fin_cases k
    · rfl
    · exact abs_sub_comm _ _
  have hz : ∀ k : Fin 2, |(Mu (k.succAbove 0) - Mu k) / √(s + 2 / 10 ^ 25)| ≤ 5 := by
    intro k
    rw [abs_div, habs, abs_of_pos hd0, div_le_iff₀ hd0]
    linarith
  have hkeep : ∀ k, MessageKept k Mu Sigma := fun k =>
    messageKept_range k Mu Sigma hS h1 h2 (by rw [hdd]; linarith [(abs_le.1 (hz k)).1])
      (by rw [hdd]; exact (abs_le.1 (hz k)).2)
  have h6 : |(Mu 1 - Mu 0) / diffDeviation 0 1 Sigma| ≤ 6 := by
    have : diffDeviation 0 1 Sigma = √(s + 2 / 10 ^ 25) := hdd 0
    rw [this]
    exact (hz 0).trans (by norm_num)
  rw [C86_two_points_belief_partial Mu Sigma hS h6 hkeep k, hdd, probNonneg_eq _ _ hd0, probNonneg_eq _ _ hsq]
  refine (ncdf_lipschitz _ _).trans ?_
  set D := Mu (k.succAbove 0) - Mu k with hD
  set z := D / √(s + 2 / 10 ^ 25) with hzd
  obtain ⟨r1, r2⟩ := regularized_ratio (v := s / 2) (by positivity)
  have hrr : √(s / 2 + 1 / 10 ^ 25) / √(s / 2) = √(s + 2 / 10 ^ 25) / √s := by
    rw [← Real.sqrt_div (by positivity), ← Real.sqrt_div (by positivity)]
    congr 1
    field_simp
  rw [hrr, show 2 * (s / 2) = s by ring] at r2
  rw [hrr] at r1
  set rho := √(s + 2 / 10 ^ 25) / √s with hrho
  have hDz : D / √s = z * rho := by
    rw [hzd, hrho]
    field_simp
  rw [hDz, show z - z * rho = z * (1 - rho) by ring, abs_mul, abs_sub_comm 1 rho, abs_of_nonneg (by linarith : 0 ≤ rho - 1)]
  have h7 : |z| * (rho - 1) ≤ 5 * (1 / 10 ^ 25 / s) :=
    mul_le_mul (hz k) (by linarith) (by linarith) (by norm_num)
  have h8 : 6 / 10 ^ 25 / s = 6 * (1 / 10 ^ 25 / s) := by ring
  have h9 : 0 < 1 / 10 ^ 25 / s := by positivity
  rw [h8]
  linarith

/-- Two independent standard normal values shifted by one deviation each. -/
example : |Real.exp (jointMin (n := 1) (fun i => if i = 0 then 0 else 2) 1 0) - probNonneg 2 √2|
    ≤ 3 / 10 ^ 25 := by
  have hd : diffVariance (1 : RMat 2) = 2 := by
    simp [diffVariance]
    norm_num
  have h := C86_two_points_close (fun i => if i = 0 then 0 else 2) 1 PosDef.one (by rw [hd]; norm_num)
    (by rw [hd]; norm_num) (by
      rw [hd]
      have : (1 : ℝ) ≤ √2 := by rw [Real.one_le_sqrt]; norm_num
      norm_num
      linarith) 0
  rw [hd] at h
  have e0 : (0 : Fin 2).succAbove 0 = 1 := rfl
  simp only [e0] at h
  norm_num at h ⊢
  exact h

end GPyOpt.Props
