import Verif.Model.AcqCost
import Verif.Props.Acquisition

/-!
# How the acquisitions order locations (C125, C126)
-/

namespace GPyOpt.Props

open Set

/-- Standardized expected improvement. -/
noncomputable def stdEI (u : ℝ) : ℝ := u * ncdf u + npdf u

theorem hasDerivAt_stdEI (u : ℝ) : HasDerivAt stdEI (ncdf u) u := by
  have h := ((hasDerivAt_id u).mul (hasDerivAt_ncdf u)).add (hasDerivAt_npdf u)
  refine h.congr_deriv ?_
  simp only [id]
  ring

theorem stdEI_strictMono : StrictMono stdEI := by
  refine strictMono_of_deriv_pos fun u => ?_
  rw [(hasDerivAt_stdEI u).deriv]
  exact ncdf_pos u

theorem stdEI_pos (u : ℝ) : 0 < stdEI u := std_improvement_pos u

/-- The graph lies above its tangents. -/
theorem stdEI_tangent (u v : ℝ) : stdEI u + ncdf u * (v - u) ≤ stdEI v := by
  rcases lt_trichotomy u v with h | h | h
  · obtain ⟨c, hc, hs⟩ := exists_hasDerivAt_eq_slope stdEI ncdf h
      (fun x _ => (hasDerivAt_stdEI x).continuousAt.continuousWithinAt) fun x _ => hasDerivAt_stdEI x
    rw [eq_div_iff (by linarith)] at hs
    have : ncdf u * (v - u) ≤ ncdf c * (v - u) :=
      mul_le_mul_of_nonneg_right (ncdf_strictMono.monotone hc.1.le) (by linarith)
    linarith
  · subst h
    simp
  · obtain ⟨c, hc, hs⟩ := exists_hasDerivAt_eq_slope stdEI ncdf h
      (fun x _ => (hasDerivAt_stdEI x).continuousAt.continuousWithinAt) fun x _ => hasDerivAt_stdEI x
    rw [eq_div_iff (by linarith)] at hs
    have : ncdf c * (u - v) ≤ ncdf u * (u - v) :=
      mul_le_mul_of_nonneg_right (ncdf_strictMono.monotone hc.2.le) (by linarith)
    linarith

theorem eiValue_std (jitter fmin m s : ℝ) :
    eiValue jitter fmin m s = clipStd s * stdEI ((fmin - m - jitter) / clipStd s) := rfl

/-- The difference of two expected improvements is at least linear in the differences of mean and deviation. -/
theorem ei_difference (d d' s s' : ℝ) (hs : 0 < s) (hs' : 0 < s') :
    npdf (d / s) * (s' - s) + ncdf (d / s) * (d' - d) ≤ s' * stdEI (d' / s') - s * stdEI (d / s) := by
  have h := mul_le_mul_of_nonneg_left (stdEI_tangent (d / s) (d' / s')) hs'.le
  have e1 : s' * (d' / s') = d' := by field_simp
  have e2 : s * (d / s) = d := by field_simp
  have e3 : s' * (stdEI (d / s) + ncdf (d / s) * (d' / s' - d / s))
      = s' * npdf (d / s) + ncdf (d / s) * d' := by
    unfold stdEI
    linear_combination ncdf (d / s) * e1
  have e4 : s * stdEI (d / s) = d * ncdf (d / s) + s * npdf (d / s) := by
    unfold stdEI
    linear_combination ncdf (d / s) * e2
  rw [e3] at h
  rw [e4]
  linarith

theorem clipStd_mono {s s' : ℝ} (h : s ≤ s') : clipStd s ≤ clipStd s' := by
  rw [clipStd_eq_max, clipStd_eq_max]
  exact max_le_max_right _ h

/-! ## C125 -/

/-- **C125 (EI).** A location with a mean at most as large, a deviation at least as large and a cost at most as large is
never a worse choice; it is a better one if the mean is smaller, or the cost is, or the deviation is larger (and above
the threshold `1e-10`). Acquisitions are minimized. -/
theorem C125_ei (jitter fmin m m' s s' c c' : ℝ) (hm : m' ≤ m) (hs : s ≤ s') (hc' : 0 < c') (hc : c' ≤ c) :
    eiAcquisition jitter fmin m' s' 1 c' ≤ eiAcquisition jitter fmin m s 1 c ∧
      (m' < m ∨ c' < c ∨ s < s' ∧ 1 / 10 ^ 10 < s' →
        eiAcquisition jitter fmin m' s' 1 c' < eiAcquisition jitter fmin m s 1 c) := by
  have hk := clipStd_pos s
  have hk' := clipStd_pos s'
  have hd := ei_difference (fmin - m - jitter) (fmin - m' - jitter) (clipStd s) (clipStd s') hk hk'
  rw [← eiValue_std, ← eiValue_std] at hd
  have h1 : 0 ≤ npdf ((fmin - m - jitter) / clipStd s) * (clipStd s' - clipStd s) :=
    mul_nonneg (npdf_pos _).le (by linarith [clipStd_mono hs])
  have h2 : 0 ≤ ncdf ((fmin - m - jitter) / clipStd s) * (fmin - m' - jitter - (fmin - m - jitter)) :=
    mul_nonneg (ncdf_pos _).le (by linarith)
  have hpos := (C57_expected_improvement jitter fmin m s).2
  have hpos' := (C57_expected_improvement jitter fmin m' s').2
  have hc0 : 0 < c := hc'.trans_le hc
  simp only [eiAcquisition, weightedAcq, mul_one, neg_div]
  rw [neg_le_neg_iff, neg_lt_neg_iff]
  refine ⟨div_le_div₀ hpos'.le (by linarith) hc' hc, ?_⟩
  rintro (h | h | ⟨h, ht⟩)
  · have : 0 < ncdf ((fmin - m - jitter) / clipStd s) * (fmin - m' - jitter - (fmin - m - jitter)) :=
      mul_pos (ncdf_pos _) (by linarith)
    exact div_lt_div₀ (by linarith) hc hpos'.le hc'
  · exact div_lt_div₀' (by linarith) h hpos' hc'
  · have : 0 < npdf ((fmin - m - jitter) / clipStd s) * (clipStd s' - clipStd s) := by
      refine mul_pos (npdf_pos _) ?_
      rw [clipStd_of_lt ht, clipStd_eq_max]
      have := max_lt h ht
      linarith
    exact div_lt_div₀ (by linarith) hc hpos'.le hc'

/-- **C125 (LCB).** The same for the lower confidence bound with a non-negative weight; the cost is ignored, as the class
announces. -/
theorem C125_lcb (w m m' s s' c c' : ℝ) (hw : 0 ≤ w) (hm : m' ≤ m) (hs : s ≤ s') :
    lcbAcquisition w m' s' 1 c' ≤ lcbAcquisition w m s 1 c ∧
      (m' < m ∨ s < s' ∧ 0 < w → lcbAcquisition w m' s' 1 c' < lcbAcquisition w m s 1 c) := by
  have h1 : w * s ≤ w * s' := mul_le_mul_of_nonneg_left hs hw
  simp only [lcbAcquisition, weightedAcq, lcbValue, mul_one, div_one]
  refine ⟨by linarith, ?_⟩
  rintro (h | ⟨h, hw⟩)
  · linarith
  · have := mul_lt_mul_of_pos_left h hw
    linarith

/-- **C125 (MPI).** The same for the probability of improvement as far as mean and cost are concerned. More uncertainty
helps exactly at locations with a mean above the target. -/
theorem C125_mpi (jitter fmin m m' s c c' : ℝ) (hm : m' ≤ m) (hc' : 0 < c') (hc : c' ≤ c) :
    (mpiAcquisition jitter fmin m' s 1 c' ≤ mpiAcquisition jitter fmin m s 1 c ∧
      (m' < m ∨ c' < c → mpiAcquisition jitter fmin m' s 1 c' < mpiAcquisition jitter fmin m s 1 c)) ∧
    ∀ s', s < s' → 1 / 10 ^ 10 < s' →
      (mpiAcquisition jitter fmin m s' 1 c < mpiAcquisition jitter fmin m s 1 c ↔ fmin - jitter < m) := by
  have hk := clipStd_pos s
  have hc0 : 0 < c := hc'.trans_le hc
  constructor
  · have hpos' := (C57_probability_of_improvement jitter fmin m' s).2.1
    have hle : mpiValue jitter fmin m s ≤ mpiValue jitter fmin m' s := by
      refine ncdf_strictMono.monotone ?_
      exact div_le_div_of_nonneg_right (by linarith) hk.le
    simp only [mpiAcquisition, weightedAcq, mul_one, neg_div]
    rw [neg_le_neg_iff, neg_lt_neg_iff]
    refine ⟨div_le_div₀ hpos'.le hle hc' hc, ?_⟩
    rintro (h | h)
    · have hlt : mpiValue jitter fmin m s < mpiValue jitter fmin m' s := by
        refine ncdf_strictMono ?_
        exact div_lt_div_of_pos_right (by linarith) hk
      exact div_lt_div₀ hlt hc hpos'.le hc'
    · exact div_lt_div₀' hle h hpos' hc'
  · intro s' h ht
    have hlt : clipStd s < clipStd s' := by
      rw [clipStd_of_lt ht, clipStd_eq_max]
      exact max_lt h ht
    have hk' := clipStd_pos s'
    simp only [mpiAcquisition, weightedAcq, mul_one, neg_div]
    rw [neg_lt_neg_iff, div_lt_div_iff_of_pos_right hc0]
    simp only [mpiValue, getQuantiles]
    rw [ncdf_strictMono.lt_iff_lt, div_lt_div_iff₀ hk hk']
    constructor
    · intro hh
      by_contra hcon
      nlinarith
    · intro hh
      nlinarith

theorem mcmcAverage_le {term : Sample → ℝ} {l l' : List Sample} {v v' : ℝ}
    (h : List.Forall₂ (fun x x' => term x ≤ term x') l l') (hv : mcmcAverage term l = .ok v)
    (hv' : mcmcAverage term l' = .ok v') : v ≤ v' := by
  have hne : l ≠ [] := by
    rintro rfl
    simp [mcmcAverage] at hv
  have hne' : l' ≠ [] := by
    rintro rfl
    simp [mcmcAverage] at hv'
  rw [mcmcAverage_eq _ _ hne] at hv
  rw [mcmcAverage_eq _ _ hne'] at hv'
  cases hv
  cases hv'
  rw [h.length_eq]
  refine div_le_div_of_nonneg_right ?_ (Nat.cast_nonneg _)
  clear hne hne'
  induction h with
  | nil => simp
  | cons hx _ ih =>
    simp only [List.map_cons, List.sum_cons]
    linarith

/-- At every sample of the parameters, the prediction `x'` has a mean at most as large and a deviation at least as large
as `x`. -/
def BetterSamples (l l' : List Sample) : Prop :=
  List.Forall₂ (fun x x' => x'.fmin = x.fmin ∧ x'.m ≤ x.m ∧ x.s ≤ x'.s) l l'

/-- **C125 (integrated acquisitions).** LCB with non-negative weights, EI without jitter, and, for equal deviations, MPI and
EI with every non-negative jitter: a location that is better for every sample of the parameters has at least the
acquisition of the other one. Missing: more uncertainty for EI with jitter, where it is false
(`C126_integrated_ei_counterexample`). -/
theorem C125_integrated_partial (w j : ℝ) (hw : 0 ≤ w) (hj : 0 ≤ j) (l l' : List Sample) (h : BetterSamples l l')
    (v v' : ℝ) :
    (lcbMcmcValue w l = .ok v → lcbMcmcValue w l' = .ok v' → v ≤ v') ∧
    (eiMcmcValue 0 l = .ok v → eiMcmcValue 0 l' = .ok v' → v ≤ v') ∧
    (l.map Sample.s = l'.map Sample.s →
      (mpiMcmcValue j l = .ok v → mpiMcmcValue j l' = .ok v' → v ≤ v') ∧
      (eiMcmcValue j l = .ok v → eiMcmcValue j l' = .ok v' → v ≤ v')) := by
  refine ⟨mcmcAverage_le (h.imp ?_), mcmcAverage_le (h.imp ?_), fun hs => ?_⟩
  · rintro x x' ⟨-, h2, h3⟩
    have := mul_le_mul_of_nonneg_left h3 hw
    linarith
  · rintro x x' ⟨h1, h2, h3⟩
    have := (C125_ei 0 x.fmin x.m x'.m x.s x'.s 1 1 h2 h3 one_pos le_rfl).1
    simp only [eiAcquisition, weightedAcq, mul_one, div_one, neg_le_neg_iff, eiValue_eq] at this
    simp only [eiMcmcTerm, h1]
    simpa using this
  · have h' : List.Forall₂ (fun x x' : Sample => x'.fmin = x.fmin ∧ x'.m ≤ x.m ∧ x.s = x'.s) l l' := by
      clear v v'
      induction h with
      | nil => exact .nil
      | cons hx _ ih =>
        simp only [List.map_cons, List.cons.injEq] at hs
        exact .cons ⟨hx.1, hx.2.1, hs.1⟩ (ih hs.2)
    have key : ∀ x x' : Sample, x'.fmin = x.fmin ∧ x'.m ≤ x.m ∧ x.s = x'.s →
        (x.fmin - x.m - j) / clipStd x.s ≤ (x'.fmin - x'.m - j) / clipStd x'.s := by
      rintro x x' ⟨h1, h2, h3⟩
      rw [h1, ← h3]
      exact div_le_div_of_nonneg_right (by linarith) (clipStd_pos _).le
    refine ⟨mcmcAverage_le (h'.imp fun x x' hx => ncdf_strictMono.monotone (key x x' hx)), mcmcAverage_le (h'.imp ?_)⟩
    intro x x' hx
    have hk := key x x' hx
    have h1 := (C125_ei j x.fmin x.m x'.m x.s x'.s 1 1 hx.2.1 hx.2.2.le one_pos le_rfl).1
    simp only [eiAcquisition, weightedAcq, mul_one, div_one, neg_le_neg_iff, eiValue_eq] at h1
    have h2 := mul_le_mul_of_nonneg_left (ncdf_strictMono.monotone hk) (by linarith : 0 ≤ 2 * j)
    simp only [eiMcmcTerm]
    simp only [getQuantiles, hx.1] at h1 h2 ⊢
    linarith

/-- The value of a one-sample integrated EI, standardized. -/
theorem eiMcmcTerm_eq (jitter fmin m s : ℝ) :
    eiMcmcTerm jitter { m := m, s := s, fmin := fmin }
      = (fmin - m + jitter) * ncdf ((fmin - m - jitter) / clipStd s)
        + clipStd s * npdf ((fmin - m - jitter) / clipStd s) := rfl

theorem mcmcTerm_compare (g : ℝ → ℝ) (hg : ∀ u, g u = 3 / 2 * ncdf u + npdf u / (2 * u)) : g 1 < g 2 := by
  have hd : ∀ u : ℝ, 0 < u → HasDerivAt g (npdf u * (1 - 1 / (2 * u ^ 2))) u := by
    intro u hu
    have h1 := (hasDerivAt_ncdf u).const_mul (3 / 2)
    have h2 := (hasDerivAt_npdf u).div (((hasDerivAt_id u).const_mul 2)) (by simpa using hu.ne')
    have h3 := h1.add h2
    have e : g = fun u => 3 / 2 * ncdf u + npdf u / (2 * u) := funext hg
    rw [e]
    refine h3.congr_deriv ?_
    simp only [id]
    field_simp
    ring
  obtain ⟨c, hc, hs⟩ := exists_hasDerivAt_eq_slope g (fun u => npdf u * (1 - 1 / (2 * u ^ 2))) (by norm_num : (1 : ℝ) < 2)
    (fun x hx => (hd x (by linarith [hx.1])).continuousAt.continuousWithinAt)
    fun x hx => hd x (by linarith [hx.1])
  have hc1 : 1 < c := hc.1
  have : 0 < npdf c * (1 - 1 / (2 * c ^ 2)) := by
    refine mul_pos (npdf_pos c) ?_
    rw [sub_pos, div_lt_one (by positivity)]
    nlinarith
  rw [hs, div_pos_iff_of_pos_right (by norm_num)] at this
  linarith

/-- **C125, C126 (negation for the integrated EI).** Two locations with the mean 1 below the incumbent and the deviations
1/4 and 1/2 (the same for every sample of the parameters): without jitter the uncertain one is preferred, with jitter
1/2 the certain one. -/
theorem C126_integrated_ei_counterexample (n : ℕ) :
    ∃ safe risky safe' risky',
      eiMcmcValue 0 (List.replicate (n + 1) { m := -1, s := 1 / 4, fmin := 0 }) = .ok safe ∧
      eiMcmcValue 0 (List.replicate (n + 1) { m := -1, s := 1 / 2, fmin := 0 }) = .ok risky ∧
      eiMcmcValue (1 / 2) (List.replicate (n + 1) { m := -1, s := 1 / 4, fmin := 0 }) = .ok safe' ∧
      eiMcmcValue (1 / 2) (List.replicate (n + 1) { m := -1, s := 1 / 2, fmin := 0 }) = .ok risky' ∧
      safe < risky ∧ risky' < safe' := by
  have hval : ∀ j s : ℝ, eiMcmcValue j (List.replicate (n + 1) { m := -1, s := s, fmin := 0 })
      = .ok (eiMcmcTerm j { m := -1, s := s, fmin := 0 }) := by
    intro j s
    have hne : List.replicate (n + 1) ({ m := -1, s := s, fmin := 0 } : Sample) ≠ [] := by simp
    rw [eiMcmcValue, mcmcAverage_eq _ _ hne]
    simp only [List.map_replicate, List.sum_replicate, List.length_replicate, nsmul_eq_mul]
    congr 1
    field_simp
  refine ⟨_, _, _, _, hval _ _, hval _ _, hval _ _, hval _ _, ?_, ?_⟩
  · rw [eiMcmcTerm_eq, eiMcmcTerm_eq]
    have c1 : clipStd (1 / 4) = 1 / 4 := clipStd_of_lt (by norm_num)
    have c2 : clipStd (1 / 2) = 1 / 2 := clipStd_of_lt (by norm_num)
    rw [c1, c2]
    have := ei_difference 1 1 (1 / 4) (1 / 2) (by norm_num) (by norm_num)
    have hp := npdf_pos (1 / (1 / 4))
    have e1 : (1 / 4 : ℝ) * stdEI (1 / (1 / 4)) = 1 * ncdf (1 / (1 / 4)) + 1 / 4 * npdf (1 / (1 / 4)) := by
      unfold stdEI; ring
    have e2 : (1 / 2 : ℝ) * stdEI (1 / (1 / 2)) = 1 * ncdf (1 / (1 / 2)) + 1 / 2 * npdf (1 / (1 / 2)) := by
      unfold stdEI; ring
    rw [e1, e2] at this
    simp only [zero_sub, neg_neg, add_zero, sub_zero]
    linarith
  · rw [eiMcmcTerm_eq, eiMcmcTerm_eq]
    have c1 : clipStd (1 / 4) = 1 / 4 := clipStd_of_lt (by norm_num)
    have c2 : clipStd (1 / 2) = 1 / 2 := clipStd_of_lt (by norm_num)
    rw [c1, c2]
    have := mcmcTerm_compare (fun u => 3 / 2 * ncdf u + npdf u / (2 * u)) fun _ => rfl
    norm_num at this ⊢
    linarith

/-! ## C126 -/

/-- **C126 (EI).** A larger jitter makes expected improvement more explorative: if the more uncertain one of two locations
is at least as good a choice with some jitter, it is with every larger jitter. -/
theorem C126_ei (fmin m m' s s' j j' : ℝ) (hs : s ≤ s') (hj : j ≤ j')
    (h : eiAcquisition j fmin m' s' 1 1 ≤ eiAcquisition j fmin m s 1 1) :
    eiAcquisition j' fmin m' s' 1 1 ≤ eiAcquisition j' fmin m s 1 1 := by
  have hk := clipStd_pos s
  have hk' := clipStd_pos s'
  have hkk := clipStd_mono hs
  simp only [eiAcquisition, weightedAcq, mul_one, div_one, neg_le_neg_iff, eiValue_std] at h ⊢
  generalize clipStd s = a at *
  generalize clipStd s' = b at *
  by_cases hu : (fmin - m - j') / a ≤ (fmin - m' - j') / b
  · have := stdEI_strictMono.monotone hu
    exact mul_le_mul hkk this (stdEI_pos _).le hk'.le
  · -- the preference increases with the jitter as long as the certain location is further below the target
    push Not at hu
    have hcross : ∀ x, x ≤ j' → (fmin - m' - x) / b < (fmin - m - x) / a := by
      intro x hx
      rw [div_lt_div_iff₀ hk' hk] at hu ⊢
      nlinarith [mul_nonneg (sub_nonneg.2 hx) (sub_nonneg.2 hkk)]
    set D : ℝ → ℝ := fun x => b * stdEI ((fmin - m' - x) / b) - a * stdEI ((fmin - m - x) / a) with hD
    have hder : ∀ x, HasDerivAt D (ncdf ((fmin - m - x) / a) - ncdf ((fmin - m' - x) / b)) x := by
      intro x
      have k1 : HasDerivAt (fun x => (fmin - m' - x) / b) (-1 / b) x := by
        have := ((hasDerivAt_id x).const_sub (fmin - m')).div_const b
        simpa using this
      have k2 : HasDerivAt (fun x => (fmin - m - x) / a) (-1 / a) x := by
        have := ((hasDerivAt_id x).const_sub (fmin - m)).div_const a
        simpa using this
      have k3 := (((hasDerivAt_stdEI ((fmin - m' - x) / b)).comp x k1).const_mul b).sub
        (((hasDerivAt_stdEI ((fmin - m - x) / a)).comp x k2).const_mul a)
      refine k3.congr_deriv ?_
      field_simp
      ring
    rcases hj.eq_or_lt with rfl | hlt
    · exact h
    obtain ⟨c, hc, hsl⟩ := exists_hasDerivAt_eq_slope D _ hlt
      (fun x _ => (hder x).continuousAt.continuousWithinAt) fun x _ => hder x
    have hpos : 0 < ncdf ((fmin - m - c) / a) - ncdf ((fmin - m' - c) / b) :=
      sub_pos.2 (ncdf_strictMono (hcross c hc.2.le))
    rw [hsl, div_pos_iff_of_pos_right (by linarith)] at hpos
    have h0 : 0 ≤ D j := by simp only [hD]; linarith
    have h1 : 0 ≤ D j' := by linarith
    simp only [hD] at h1
    linarith

/-- **C126 (MPI).** The same for the probability of improvement. -/
theorem C126_mpi (fmin m m' s s' j j' : ℝ) (hs : s ≤ s') (hj : j ≤ j')
    (h : mpiAcquisition j fmin m' s' 1 1 ≤ mpiAcquisition j fmin m s 1 1) :
    mpiAcquisition j' fmin m' s' 1 1 ≤ mpiAcquisition j' fmin m s 1 1 := by
  have hk := clipStd_pos s
  have hk' := clipStd_pos s'
  have hkk := clipStd_mono hs
  simp only [mpiAcquisition, weightedAcq, mul_one, div_one, neg_le_neg_iff, mpiValue, getQuantiles] at h ⊢
  rw [ncdf_strictMono.le_iff_le, div_le_div_iff₀ hk hk'] at h ⊢
  nlinarith [mul_nonneg (sub_nonneg.2 hj) (sub_nonneg.2 hkk)]

/-- **C126 (LCB).** The same for the exploration weight of the lower confidence bound. -/
theorem C126_lcb (m m' s s' w w' : ℝ) (hs : s ≤ s') (hw : w ≤ w')
    (h : lcbAcquisition w m' s' 1 1 ≤ lcbAcquisition w m s 1 1) :
    lcbAcquisition w' m' s' 1 1 ≤ lcbAcquisition w' m s 1 1 := by
  simp only [lcbAcquisition, weightedAcq, lcbValue, mul_one, div_one] at h ⊢
  nlinarith [mul_nonneg (sub_nonneg.2 hw) (sub_nonneg.2 hs)]

/-- **C126 (integrated acquisitions; partial).** LCB for all samples of the parameters, MPI if the samples agree at both
locations. Missing: EI, where it is false (`C126_integrated_ei_counterexample`). -/
theorem C126_integrated_partial (w w' j j' v v' u u' : ℝ) (hw : w ≤ w') (hj : j ≤ j') (l l' : List Sample)
    (hs : List.Forall₂ (fun x x' => x.s ≤ x'.s) l l') (n : ℕ) (x x' : Sample) (hx : x.s ≤ x'.s) (hf : x.fmin = x'.fmin) :
    (lcbMcmcValue w l = .ok v → lcbMcmcValue w l' = .ok v' → lcbMcmcValue w' l = .ok u → lcbMcmcValue w' l' = .ok u' →
      v ≤ v' → u ≤ u') ∧
    (mpiMcmcValue j (List.replicate n x) = .ok v → mpiMcmcValue j (List.replicate n x') = .ok v' →
      mpiMcmcValue j' (List.replicate n x) = .ok u → mpiMcmcValue j' (List.replicate n x') = .ok u' → v ≤ v' → u ≤ u') := by
  constructor
  · intro h1 h2 h3 h4 h
    have hne : l ≠ [] := by rintro rfl; simp [lcbMcmcValue, mcmcAverage] at h1
    have hne' : l' ≠ [] := by rintro rfl; simp [lcbMcmcValue, mcmcAverage] at h2
    have hlen := hs.length_eq
    have hpos : (0 : ℝ) < l'.length := by exact_mod_cast List.length_pos_of_ne_nil hne'
    have hsum : ∀ (c : ℝ) (k : List Sample), (k.map fun y => -y.m + c * y.s).sum
        = -(k.map Sample.m).sum + c * (k.map Sample.s).sum := by
      intro c k
      induction k with
      | nil => simp
      | cons y k ih => simp only [List.map_cons, List.sum_cons, ih]; ring
    have hle : (l.map Sample.s).sum ≤ (l'.map Sample.s).sum := by
      clear hsum h1 h2 h3 h4 h hne hne' hlen hpos
      induction hs with
      | nil => simp
      | cons hxy _ ih => simp only [List.map_cons, List.sum_cons]; linarith
    rw [lcbMcmcValue, mcmcAverage_eq _ _ hne, hsum, hlen] at h1 h3
    rw [lcbMcmcValue, mcmcAverage_eq _ _ hne', hsum] at h2 h4
    injection h1 with h1; injection h2 with h2; injection h3 with h3; injection h4 with h4
    rw [← h1, ← h2, div_le_div_iff_of_pos_right hpos] at h
    rw [← h3, ← h4, div_le_div_iff_of_pos_right hpos]
    nlinarith [mul_nonneg (sub_nonneg.2 hw) (sub_nonneg.2 hle)]
  · intro h1 h2 h3 h4 h
    have hval : ∀ (t r : ℝ) (y : Sample), mpiMcmcValue t (List.replicate n y) = .ok r → r = mpiValue t y.fmin y.m y.s := by
      intro t r y hy
      have hn : n ≠ 0 := by rintro rfl; simp [mpiMcmcValue, mcmcAverage] at hy
      have hn' : (n : ℝ) ≠ 0 := by exact_mod_cast hn
      have hne : List.replicate n y ≠ [] := by simp [hn]
      rw [mpiMcmcValue, mcmcAverage_eq _ _ hne] at hy
      simp only [List.map_replicate, List.sum_replicate, List.length_replicate, nsmul_eq_mul] at hy
      injection hy with hy
      rw [← hy, mul_div_cancel_left₀ _ hn']
      rfl
    have hm := C126_mpi x.fmin x.m x'.m x.s x'.s j j' hx hj
    simp only [mpiAcquisition, weightedAcq, mul_one, div_one, neg_le_neg_iff] at hm
    rw [hval _ _ _ h1, hval _ _ _ h2, ← hf] at h
    rw [hval _ _ _ h3, hval _ _ _ h4, ← hf]
    exact hm h

/-- The hypotheses of `C126_ei` are met by two locations with the same mean. -/
example : eiAcquisition 0 0 1 2 1 1 < eiAcquisition 0 0 1 1 1 1 :=
  (C125_ei 0 0 1 1 1 2 1 1 le_rfl (by norm_num) one_pos le_rfl).2 (.inr (.inr ⟨by norm_num, by norm_num⟩))

/-- The preference really changes: the certain location with jitter 0, the uncertain one with jitter 3. -/
example : mpiAcquisition 0 0 (-1) 1 1 1 < mpiAcquisition 0 0 0 2 1 1 ∧
    mpiAcquisition 3 0 0 2 1 1 < mpiAcquisition 3 0 (-1) 1 1 1 := by
  have c1 : clipStd 1 = 1 := clipStd_of_lt (by norm_num)
  have c2 : clipStd 2 = 2 := clipStd_of_lt (by norm_num)
  simp only [mpiAcquisition, weightedAcq, mul_one, div_one, neg_lt_neg_iff, mpiValue, getQuantiles, c1, c2]
  constructor
  · exact ncdf_strictMono (by norm_num)
  · exact ncdf_strictMono (by norm_num)

/-- The hypotheses of `C125_integrated_partial` are met. -/
example : BetterSamples [{ m := 1, s := 1, fmin := 0 }] [{ m := 0, s := 2, fmin := 0 }] ∧
    ∃ v v', lcbMcmcValue 2 [{ m := 1, s := 1, fmin := 0 }] = .ok v ∧
      lcbMcmcValue 2 [{ m := 0, s := 2, fmin := 0 }] = .ok v' ∧ v = 1 ∧ v' = 4 := by
  refine ⟨.cons ⟨rfl, by norm_num, by norm_num⟩ .nil, _, _, mcmcAverage_eq _ _ (by simp), mcmcAverage_eq _ _ (by simp),
    by norm_num, by norm_num⟩

/-- The hypotheses of `C126_integrated_partial` are met. -/
example : ∃ v v', mpiMcmcValue 0 (List.replicate 3 { m := 1, s := 1, fmin := 0 }) = .ok v ∧
    mpiMcmcValue 0 (List.replicate 3 { m := 1, s := 2, fmin := 0 }) = .ok v' ∧ v < v' := by
  have c1 : clipStd 1 = 1 := clipStd_of_lt (by norm_num)
  have c2 : clipStd 2 = 2 := clipStd_of_lt (by norm_num)
  refine ⟨_, _, mcmcAverage_eq _ _ (by simp), mcmcAverage_eq _ _ (by simp), ?_⟩
  simp only [List.map_replicate, List.sum_replicate, List.length_replicate, nsmul_eq_mul, getQuantiles, c1, c2]
  have := ncdf_strictMono (show ((0 : ℝ) - 1 - 0) / 1 < (0 - 1 - 0) / 2 by norm_num)
  norm_num at this ⊢
  linarith

end GPyOpt.Props
