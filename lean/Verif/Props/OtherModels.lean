import Verif.Model.OtherModels
import Verif.Props.Design
import Verif.Props.General

/-!
# Properties C107–C110: random forests, noise of the models, input warping, entropy search on spaces
-/

namespace GPyOpt.Props

open GPyOpt Spec

/-! ## C107: random forest predictions -/

theorem sum_map_sq (c : ℝ) (l : List ℝ) :
    (l.map fun y => (y - c) ^ 2).sum = (l.map fun y => y ^ 2).sum - 2 * c * l.sum + l.length * c ^ 2 := by
  induction l with
  | nil => simp
  | cons y l ih => simp only [List.map_cons, List.sum_cons, ih, List.length_cons]; push_cast; ring

theorem length_pos_real {l : List ℝ} (h : l ≠ []) : (0 : ℝ) < l.length := by
  have := List.length_pos_of_ne_nil h
  exact_mod_cast this

theorem meanR_bounds {l : List ℝ} (h : l ≠ []) {lo hi : ℝ} (hl : ∀ y ∈ l, lo ≤ y) (hh : ∀ y ∈ l, y ≤ hi) :
    lo ≤ meanR l ∧ meanR l ≤ hi := by
  have hp := length_pos_real h
  have h1 : (l.length : ℝ) * lo ≤ l.sum := by
    have := List.card_nsmul_le_sum l lo hl
    simpa using this
  have h2 : l.sum ≤ (l.length : ℝ) * hi := by
    have := List.sum_le_card_nsmul l hi hh
    simpa using this
  unfold meanR
  constructor
  · rw [le_div_iff₀ hp]; linarith
  · rw [div_le_iff₀ hp]; linarith

theorem sum_nonneg_real {l : List ℝ} (h : ∀ y ∈ l, 0 ≤ y) : 0 ≤ l.sum := List.sum_nonneg h

/-- The standard deviation vanishes exactly if all the values agree; it is at most half of the range. -/
theorem stdR_zero_iff {l : List ℝ} (h : l ≠ []) : stdR l = 0 ↔ ∀ y ∈ l, ∀ z ∈ l, y = z := by
  have hp := length_pos_real h
  have hn : 0 ≤ (l.map fun y => (y - meanR l) ^ 2).sum := sum_nonneg_real (by
    intro y hy
    obtain ⟨z, -, rfl⟩ := List.mem_map.1 hy
    positivity)
  unfold stdR
  rw [Real.sqrt_eq_zero (div_nonneg hn hp.le), div_eq_zero_iff, or_iff_left hp.ne']
  constructor
  · intro h0
    have hz : ∀ y ∈ l, y = meanR l := by
      intro y hy
      have hle := List.single_le_sum (l := l.map fun y => (y - meanR l) ^ 2) (by
        intro y hy
        obtain ⟨z, -, rfl⟩ := List.mem_map.1 hy
        positivity) _ (List.mem_map_of_mem hy)
      rw [h0] at hle
      have := le_antisymm hle (sq_nonneg _)
      have := pow_eq_zero_iff (two_ne_zero) |>.1 this
      linarith
    intro y hy z hz'
    rw [hz y hy, hz z hz']
  · intro hall
    obtain ⟨y0, hy0⟩ := List.exists_mem_of_ne_nil l h
    have hm : meanR l = y0 := by
      have := meanR_bounds h (lo := y0) (hi := y0) (fun y hy => (hall y0 hy0 y hy).le)
        (fun y hy => (hall y hy y0 hy0).le)
      linarith [this.1, this.2]
    apply List.sum_eq_zero
    intro y hy
    obtain ⟨z, hz, rfl⟩ := List.mem_map.1 hy
    rw [hm, hall z hz y0 hy0]; ring

theorem stdR_le_half_range {l : List ℝ} (h : l ≠ []) {lo hi : ℝ} (hl : ∀ y ∈ l, lo ≤ y) (hh : ∀ y ∈ l, y ≤ hi) :
    stdR l ≤ (hi - lo) / 2 := by
  have hp := length_pos_real h
  obtain ⟨m1, m2⟩ := meanR_bounds h hl hh
  have hsum : l.sum = l.length * meanR l := by unfold meanR; field_simp
  have key : 0 ≤ (l.map fun y => (hi - y) * (y - lo)).sum := sum_nonneg_real (by
    intro y hy
    obtain ⟨z, hz, rfl⟩ := List.mem_map.1 hy
    exact mul_nonneg (by linarith [hh z hz]) (by linarith [hl z hz]))
  have hexp : ∀ l : List ℝ, (l.map fun y => (hi - y) * (y - lo)).sum
      = -(l.map fun y => y ^ 2).sum + (hi + lo) * l.sum - l.length * (hi * lo) := by
    intro l
    induction l with
    | nil => simp
    | cons y l ih => simp only [List.map_cons, List.sum_cons, ih, List.length_cons]; push_cast; ring
  rw [hexp] at key
  have hv := sum_map_sq (meanR l) l
  unfold stdR
  rw [Real.sqrt_le_left (by linarith), div_le_iff₀ hp, hv, hsum]
  rw [hsum] at key
  nlinarith [sq_nonneg (hi + lo - 2 * meanR l), mul_nonneg hp.le (sq_nonneg (hi + lo - 2 * meanR l))]

/-- The mean of the values `v` of the trees at `x`. -/
noncomputable def treeMean (v : List (List ℝ → ℝ)) (x : List ℝ) : ℝ := (v.map fun t => t x).sum / v.length

/-- C107 (partial: scikit-learn from version 0.19 on refuses the single rows, see
`C107_single_rows_counterexample`). For every forest whose trees accept single rows (with values `v`), the predictions
consist of one mean and one standard deviation per row. The mean is the average of the trees, hence between every
lower and upper bound of the trees; the deviation is zero exactly if all trees agree, and at most half of their
range. If scikit-learn's forest averages its trees then the minimum of the model is the smallest predicted mean at
the data, attained at one of them. -/
theorem C107_forest_partial (v : List (List ℝ → ℝ)) (hv : v ≠ []) (X : List (List ℝ)) :
    ∃ M S, rfPredict (v.map fun t x => .ok (t x)) X = .ok (M, S) ∧ M.length = X.length ∧ S.length = X.length ∧
      (∀ (k : Nat) (x : List ℝ), X[k]? = some x → ∃ m s, M[k]? = some m ∧ S[k]? = some s ∧ m = treeMean v x ∧
        0 ≤ s ∧ (s = 0 ↔ ∀ t ∈ v, ∀ t' ∈ v, t x = t' x) ∧
        ∀ lo hi, (∀ t ∈ v, lo ≤ t x ∧ t x ≤ hi) → lo ≤ m ∧ m ≤ hi ∧ s ≤ (hi - lo) / 2) ∧
      ∀ forest : List (List ℝ) → Py (List ℝ), (∀ X, forest X = .ok (X.map (treeMean v))) →
        (X = [] → rfFmin forest X = .error .valueError) ∧
        (X ≠ [] → ∃ fmin, rfFmin forest X = .ok fmin ∧ fmin ∈ M ∧ ∀ m ∈ M, fmin ≤ m) := by
  have hrow : ∀ x, rfPredictRow (v.map fun t x => .ok (t x)) x
      = .ok (meanR (v.map fun t => t x), stdR (v.map fun t => t x)) := by
    intro x
    unfold rfPredictRow
    have hm : mapE (fun t : List ℝ → Py ℝ => t x) (v.map fun t x => .ok (t x)) = .ok (v.map fun t => t x) := by
      clear hv
      induction v with
      | nil => rfl
      | cons t v ih => simp only [List.map_cons, mapE, ih]
    rw [hm]
    simp [hv]
  have hM : ∀ x, meanR (v.map fun t => t x) = treeMean v x := by
    intro x; unfold meanR treeMean; simp
  have hall : mapE (rfPredictRow (v.map fun t x => .ok (t x))) X
      = .ok (X.map fun x => (meanR (v.map fun t => t x), stdR (v.map fun t => t x))) :=
    mapE_map_ok fun x _ => hrow x
  refine ⟨X.map (treeMean v), X.map fun x => stdR (v.map fun t => t x), ?_, by simp, by simp, ?_, ?_⟩
  · unfold rfPredict
    rw [hall]
    simp [List.map_map, Function.comp_def, hM]
  · intro k x hk
    have hne : (v.map fun t => t x) ≠ [] := by simpa using hv
    refine ⟨treeMean v x, stdR (v.map fun t => t x), by simp [hk], by simp [hk], rfl, Real.sqrt_nonneg _, ?_, ?_⟩
    · rw [stdR_zero_iff hne]
      simp only [List.forall_mem_map]
    · intro lo hi hb
      have h1 : ∀ y ∈ v.map fun t => t x, lo ≤ y := by
        intro y hy; obtain ⟨t, ht, rfl⟩ := List.mem_map.1 hy; exact (hb t ht).1
      have h2 : ∀ y ∈ v.map fun t => t x, y ≤ hi := by
        intro y hy; obtain ⟨t, ht, rfl⟩ := List.mem_map.1 hy; exact (hb t ht).2
      have := meanR_bounds hne h1 h2
      rw [hM] at this
      exact ⟨this.1, this.2, stdR_le_half_range hne h1 h2⟩
  · intro forest hf
    unfold rfFmin
    rw [hf]
    constructor
    · rintro rfl; simp
    · intro hX
      have hne : X.map (treeMean v) ≠ [] := by simpa using hX
      simp only [hne, if_false]
      obtain ⟨m1, m2⟩ := minR_spec hne
      exact ⟨_, rfl, m1, m2⟩

/-- Two trees and two rows. -/
example : ∃ M S, rfPredict ([fun x => x.headD 0, fun _ => 1].map fun t x => .ok (t x)) [[3], [1]] = .ok (M, S) ∧
    M[0]? = some 2 ∧ S[1]? = some 0 := by
  obtain ⟨M, S, h1, -, -, h2, -⟩ := C107_forest_partial [fun x => x.headD 0, fun _ => 1] (by simp) [[3], [1]]
  obtain ⟨m, s, a1, -, a3, -⟩ := h2 0 [3] rfl
  obtain ⟨m', s', -, b2, -, -, b5, -⟩ := h2 1 [1] rfl
  refine ⟨M, S, h1, ?_, ?_⟩
  · rw [a1, a3]; norm_num [treeMean]
  · rw [b2, b5.2 (by simp)]

/-- C107 (negation of the full property). If the trees refuse single rows then the model has no predictions: every call
of `predict` on at least one row raises. -/
theorem C107_single_rows_counterexample (trees : List (List ℝ → Py ℝ)) (ht : trees ≠ [])
    (href : ∀ t ∈ trees, ∀ x, t x = .error .valueError) (X : List (List ℝ)) (hX : X ≠ []) :
    rfPredict trees X = .error .valueError := by
  obtain ⟨t, ts, rfl⟩ := List.exists_cons_of_ne_nil ht
  obtain ⟨x, xs, rfl⟩ := List.exists_cons_of_ne_nil hX
  unfold rfPredict mapE rfPredictRow mapE
  rw [href t (by simp)]

example : ∃ trees : List (List ℝ → Py ℝ), trees ≠ [] ∧ ∀ t ∈ trees, ∀ x, t x = .error .valueError :=
  ⟨[fun _ => .error .valueError], by simp, by simp⟩

/-- C107. The forest is fitted in every update, to all the data of the update, which are also the data of
`get_fmin`. -/
theorem C107_fitted_to_data (updates : List (Mat × Vec)) (hu : updates ≠ []) :
    let m := updates.foldl (fun m u => RFObj.update m u.1 u.2) {}
    m.fits = updates ∧ m.data = updates.getLast? ∧ m.fits.getLast? = m.data := by
  have key : ∀ (us : List (Mat × Vec)) (m : RFObj), us ≠ [] →
      (us.foldl (fun m u => RFObj.update m u.1 u.2) m).fits = m.fits ++ us ∧
      (us.foldl (fun m u => RFObj.update m u.1 u.2) m).data = us.getLast? := by
    intro us
    induction us with
    | nil => intro m h; exact absurd rfl h
    | cons u us ih =>
      intro m _
      by_cases hus : us = []
      · subst hus
        simp [RFObj.update]
      · obtain ⟨i1, i2⟩ := ih (RFObj.update m u.1 u.2) hus
        simp only [List.foldl_cons]
        refine ⟨by rw [i1]; simp [RFObj.update], ?_⟩
        rw [i2, List.getLast?_cons]
        cases us with
        | nil => exact absurd rfl hus
        | cons a us => simp [List.getLast?_cons]
  obtain ⟨k1, k2⟩ := key updates {} hu
  simp only [List.nil_append] at k1
  exact ⟨k1, k2, by rw [k1, k2]⟩

/-- C107. A warped Gaussian process keeps the mean and reports the root of the variance, at least `1e-5`. -/
theorem C107_warped (m v : ℝ) : (warpedPredict (m, v)).1 = m ∧ 1 / 10 ^ 5 ≤ (warpedPredict (m, v)).2 ∧
    ((1 / 10 ^ 10 : ℝ) ≤ v → 0 ≤ (warpedPredict (m, v)).2 ∧ (warpedPredict (m, v)).2 ^ 2 = v) ∧
    (v ≤ (1 / 10 ^ 10 : ℝ) → (warpedPredict (m, v)).2 = 1 / 10 ^ 5) := by
  have h5 : Real.sqrt (1 / 10 ^ 10) = 1 / 10 ^ 5 := by
    rw [show (1 / 10 ^ 10 : ℝ) = (1 / 10 ^ 5) ^ 2 by norm_num]
    exact Real.sqrt_sq (by norm_num)
  refine ⟨rfl, ?_, ?_, ?_⟩
  · rw [← h5]
    exact Real.sqrt_le_sqrt (le_max_right _ _)
  · intro hv
    refine ⟨Real.sqrt_nonneg _, ?_⟩
    unfold warpedPredict
    rw [max_eq_left hv, Real.sq_sqrt (le_trans (by norm_num) hv)]
  · intro hv
    unfold warpedPredict
    rw [max_eq_right hv, h5]

/-! ## C108: the noise variance of the models -/

/-- C108 (partial: sparse, warped and input-warped models ignore the variance, see
`C108_noise_ignored_counterexample`). Regression and MCMC models start from the noise variance of the user, or from a
hundredth of the variance of the outputs; with exact evaluations the noise of every model is fixed at `1e-6`, otherwise it
is positive. -/
theorem C108_noise_partial (c : GPClass) (noiseVar : Option ℚ) (Y : Vec) :
    (∀ ex, c = .regression ∨ c = .mcmc →
      (∀ v, noiseVar = some v → (createNoise c noiseVar ex Y).initial = some v) ∧
      (noiseVar = none → ∃ v, (createNoise c noiseVar ex Y).initial = some v ∧ 0 ≤ v ∧
        100 * v * Y.length = (Y.map fun y => (y - Y.sum / Y.length) ^ 2).sum)) ∧
    (createNoise c noiseVar true Y).constraint = .fixed (1 / 10 ^ 6) ∧
    ((createNoise c noiseVar false Y).constraint = .positive ∨
      ∃ lo hi, (createNoise c noiseVar false Y).constraint = .bounded lo hi ∧ 0 < lo ∧ lo < hi) := by
  refine ⟨?_, rfl, ?_⟩
  · intro ex hc
    have hvar : 0 ≤ varQ Y * (1 / 100) ∧
        100 * (varQ Y * (1 / 100)) * Y.length = (Y.map fun y => (y - Y.sum / Y.length) ^ 2).sum := by
      unfold varQ
      constructor
      · have : 0 ≤ (Y.map fun y => (y - Y.sum / Y.length) ^ 2).sum := List.sum_nonneg (by
          intro y hy
          obtain ⟨z, -, rfl⟩ := List.mem_map.1 hy
          positivity)
        positivity
      · cases Y with
        | nil => simp
        | cons y Y =>
          have : (((y :: Y).length : Nat) : ℚ) ≠ 0 := by
            simp only [List.length_cons]; positivity
          generalize ((y :: Y).map fun z => (z - (y :: Y).sum / ((y :: Y).length : ℚ)) ^ 2).sum = S
          field_simp
    rcases hc with rfl | rfl
    · refine ⟨?_, ?_⟩
      · rintro v rfl; rfl
      · rintro rfl; exact ⟨_, rfl, hvar⟩
    · refine ⟨?_, ?_⟩
      · rintro v rfl; rfl
      · rintro rfl; exact ⟨_, rfl, hvar⟩
  · cases c
    · right; exact ⟨_, _, rfl, by norm_num, by norm_num⟩
    · right; exact ⟨_, _, rfl, by norm_num, by norm_num⟩
    · left; rfl
    · left; rfl
    · right; exact ⟨_, _, rfl, by norm_num, by norm_num⟩

/-- C108 (negation of the full property). Sparse, warped and input-warped models never pass the noise variance on: the
model is the same whatever variance the user gives. -/
theorem C108_noise_ignored_counterexample (c : GPClass) (hc : c = .sparse ∨ c = .warped ∨ c = .inputWarped)
    (nv nv' : Option ℚ) (ex : Bool) (Y : Vec) :
    createNoise c nv ex Y = createNoise c nv' ex Y ∧ (createNoise c nv ex Y).initial = none := by
  rcases hc with rfl | rfl | rfl <;> exact ⟨rfl, rfl⟩

example : (createNoise .regression (some (1/4)) false [1, 3]).initial = some (1/4) ∧
    (createNoise .mcmc none false [1, 3]).initial = some (1/100) := by decide +kernel

/-! ## C109: the range of input warping -/

/-- The point is inside of the range, in all coordinates. -/
def InRange (r : Vec × Vec) (x : Vec) : Prop :=
  ∀ (i : Nat) (v : ℚ), x[i]? = some v → ∃ lo hi, r.1[i]? = some lo ∧ r.2[i]? = some hi ∧ lo ≤ v ∧ v ≤ hi

theorem colMin_spec {d : Nat} {X : Mat} (hX : X ≠ []) (hd : ∀ r ∈ X, r.length = d) :
    (colMin X).length = d ∧ ∀ r ∈ X, ∀ (i : Nat) (v : ℚ), r[i]? = some v → ∃ lo, (colMin X)[i]? = some lo ∧ lo ≤ v := by
  induction X with
  | nil => exact absurd rfl hX
  | cons r X ih =>
    cases X with
    | nil =>
      refine ⟨hd r (by simp), ?_⟩
      intro r' hr' i v hv
      rw [List.mem_singleton] at hr'
      subst hr'
      exact ⟨v, hv, le_rfl⟩
    | cons r2 X =>
      obtain ⟨i1, i2⟩ := ih (by simp) (fun r hr => hd r (List.mem_cons_of_mem _ hr))
      have hr0 := hd r (by simp)
      refine ⟨by simp [colMin, i1, hr0], ?_⟩
      intro r' hr' i v hv
      have hlt : i < d := by
        have := (List.getElem?_eq_some_iff.1 hv).1
        rw [hd r' hr'] at this
        exact this
      have ha : r[i]? = some (r[i]'(by omega)) := List.getElem?_eq_getElem _
      have hb : (colMin (r2 :: X))[i]? = some ((colMin (r2 :: X))[i]'(by omega)) := List.getElem?_eq_getElem _
      refine ⟨min (r[i]'(by omega)) ((colMin (r2 :: X))[i]'(by omega)), ?_, ?_⟩
      · rw [colMin, List.getElem?_zipWith, ha, hb]
        simp
      · rcases List.mem_cons.1 hr' with rfl | hr'
        · rw [ha] at hv; cases hv; exact min_le_left _ _
        · obtain ⟨lo, h1, h2⟩ := i2 r' hr' i v hv
          rw [hb] at h1
          cases h1
          exact le_trans (min_le_right _ _) h2

theorem colMax_spec {d : Nat} {X : Mat} (hX : X ≠ []) (hd : ∀ r ∈ X, r.length = d) :
    (colMax X).length = d ∧ ∀ r ∈ X, ∀ (i : Nat) (v : ℚ), r[i]? = some v → ∃ hi, (colMax X)[i]? = some hi ∧ v ≤ hi := by
  induction X with
  | nil => exact absurd rfl hX
  | cons r X ih =>
    cases X with
    | nil =>
      refine ⟨hd r (by simp), ?_⟩
      intro r' hr' i v hv
      rw [List.mem_singleton] at hr'
      subst hr'
      exact ⟨v, hv, le_rfl⟩
    | cons r2 X =>
      obtain ⟨i1, i2⟩ := ih (by simp) (fun r hr => hd r (List.mem_cons_of_mem _ hr))
      have hr0 := hd r (by simp)
      refine ⟨by simp [colMax, i1, hr0], ?_⟩
      intro r' hr' i v hv
      have hlt : i < d := by
        have := (List.getElem?_eq_some_iff.1 hv).1
        rw [hd r' hr'] at this
        exact this
      have ha : r[i]? = some (r[i]'(by omega)) := List.getElem?_eq_getElem _
      have hb : (colMax (r2 :: X))[i]? = some ((colMax (r2 :: X))[i]'(by omega)) := List.getElem?_eq_getElem _
      refine ⟨max (r[i]'(by omega)) ((colMax (r2 :: X))[i]'(by omega)), ?_, ?_⟩
      · rw [colMax, List.getElem?_zipWith, ha, hb]
        simp
      · rcases List.mem_cons.1 hr' with rfl | hr'
        · rw [ha] at hv; cases hv; exact le_max_left _ _
        · obtain ⟨lo, h1, h2⟩ := i2 r' hr' i v hv
          rw [hb] at h1
          cases h1
          exact le_trans h2 (le_max_right _ _)

/-- C109 (partial: only the data of the first update, see `C109_later_data_counterexample`). After any sequence of updates the
range an input-warped model works with is that of the data of the first update, and contains them. -/
theorem C109_warp_range_partial (d : Nat) (X : Mat) (Xs : List Mat) (hX : X ≠ []) (hd : ∀ r ∈ X, r.length = d) :
    ∃ r, warpUpdates none (X :: Xs) = .ok (some r) ∧ ∀ x ∈ X, InRange r x := by
  have hrest : ∀ (Xs : List Mat) r, warpUpdates (some r) Xs = .ok (some r) := by
    intro Xs
    induction Xs with
    | nil => intro r; rfl
    | cons X Xs ih => intro r; simp only [warpUpdates, warpUpdate, ih]
  refine ⟨(colMin X, colMax X), ?_, ?_⟩
  · simp only [warpUpdates, warpUpdate, hX, if_false, hrest]
  · intro x hx i v hv
    obtain ⟨lo, l1, l2⟩ := (colMin_spec hX hd).2 x hx i v hv
    obtain ⟨hi, h1, h2⟩ := (colMax_spec hX hd).2 x hx i v hv
    exact ⟨lo, hi, l1, h1, l2, h2⟩

/-- C109 (negation of the full property). The initial data are at 1/4 and 3/4 of the unit interval; after the update with an
evaluation at 1 the range is still that of the initial data, and the new data are outside. -/
theorem C109_later_data_counterexample :
    warpUpdates none [[[1/4], [3/4]], [[1/4], [3/4], [1]]] = .ok (some ([1/4], [3/4])) ∧
    ¬ InRange ([1/4], [3/4]) [1] := by
  refine ⟨by decide +kernel, ?_⟩
  intro h
  obtain ⟨lo, hi, -, h2, -, h4⟩ := h 0 1 rfl
  simp only [List.getElem?_cons_zero, Option.some.injEq] at h2
  rw [← h2] at h4
  norm_num at h4

example : warpUpdates none [[[0, 5], [2, 1], [1, 3]]] = .ok (some ([0, 1], [2, 5])) := by decide +kernel

/-! ## C110: entropy search and the kinds of variables -/

/-- continuous and discrete variables -/
def isNumeric : Kind → Bool
  | .continuous _ _ => true
  | .discrete _ => true
  | .categorical _ => false
  | .bandit _ => false

theorem inputDim_eq {config : List Desc} {cs : Option (List ConstrDict)} {sp : Space}
    (h : designSpace config cs = .ok sp) (hb : sp.hasBandit = false) :
    sp.inputDim = .ok ((kindsOf config).filter isNumeric).length := by
  have hk := space_kinds_eq h
  have hd := dimensionality_eq h hb
  have key : ∀ (p : Kind → Bool) (ex : List EVar), ((List.range ex.length).filter
      fun i => (ex[i]?.map (fun v => p v.kind)).getD false).length = ((ex.map EVar.kind).filter p).length := by
    intro p ex
    induction ex using List.reverseRecOn with
    | nil => simp
    | append_singleton ex v ih =>
      rw [List.length_append, List.length_singleton, List.range_succ, List.filter_append, List.length_append,
        List.map_append, List.filter_append, List.length_append]
      congr 1
      · rw [← ih]
        congr 1
        apply List.filter_congr
        intro i hi
        rw [List.mem_range] at hi
        rw [List.getElem?_append_left hi]
      · simp only [List.filter_cons, List.filter_nil, List.map_cons, List.map_nil]
        rw [List.getElem?_append_right le_rfl]
        simp
        split_ifs <;> rfl
  have hin : ∀ i ∈ List.range sp.dimensionality, i < sp.expanded.length := by
    intro i hi; rw [List.mem_range] at hi; omega
  unfold Space.inputDim Space.getContinuousDims Space.getDiscreteDims
  rw [dimsWhere_ok _ _ _ hin, dimsWhere_ok _ _ _ hin]
  simp only
  rw [hd, key, key, ← hk, Space.kinds]
  congr 1
  generalize sp.expanded.map EVar.kind = ks
  induction ks with
  | nil => rfl
  | cons k ks ih =>
    cases k <;> simp only [List.filter_cons, Kind.isContinuous, Kind.isDiscrete, isNumeric, if_true, if_false,
      Bool.false_eq_true, List.length_cons] <;> omega

theorem isBandit_false {ks : List Kind} (h : NoBandit ks) : ∀ k ∈ ks, k.isBandit = false := by
  intro k hk
  cases k with
  | bandit arms => exact absurd rfl (h _ hk arms)
  | _ => rfl

set_option linter.unusedSimpArgs false in
/-- number of columns of the model and of the objective that are neither continuous nor discrete -/
theorem columns_eq {ks : List Kind} (hnb : ∀ k ∈ ks, k.isBandit = false) (hs : ∀ k ∈ ks, Samplable k) :
    ((∀ labels, Kind.categorical labels ∉ ks) →
      (ks.filter isNumeric).length = (ks.map width).sum ∧
      (ks.filter isNumeric).length = ks.length) ∧
    ((∃ labels, Kind.categorical labels ∈ ks) →
      (ks.filter isNumeric).length < (ks.map width).sum ∧
      (ks.filter isNumeric).length < ks.length) := by
  have hle : ∀ ks : List Kind, (∀ k ∈ ks, k.isBandit = false) → (ks.filter isNumeric).length ≤ (ks.map width).sum := by
    intro ks
    induction ks with
    | nil => simp
    | cons k ks ih =>
      intro hnb
      have := ih (fun k hk => hnb k (List.mem_cons_of_mem _ hk))
      have hk := hnb k (by simp)
      cases k <;> simp only [Kind.isBandit, width, List.filter_cons, isNumeric, if_true, if_false, Bool.false_eq_true, List.length_cons, List.map_cons, List.sum_cons, Bool.true_eq_false] at hk ⊢ <;> omega
  have hfl : ∀ ks : List Kind, (ks.filter isNumeric).length ≤ ks.length :=
    fun ks => List.length_filter_le _ _
  induction ks with
  | nil => simp
  | cons k ks ih =>
    obtain ⟨i1, i2⟩ := ih (fun k hk => hnb k (List.mem_cons_of_mem _ hk)) (fun k hk => hs k (List.mem_cons_of_mem _ hk))
    have hle' := hle ks (fun k hk => hnb k (List.mem_cons_of_mem _ hk))
    have hfl' := hfl ks
    have hk := hnb k (by simp)
    have hsk := hs k (by simp)
    constructor
    · intro hno
      obtain ⟨j1, j2⟩ := i1 (fun l hl => hno l (List.mem_cons_of_mem _ hl))
      cases k with
      | continuous lo hi => simp only [isNumeric, width, List.filter_cons, if_true, if_false, Bool.false_eq_true, List.length_cons, List.map_cons, List.sum_cons] at j1 j2 ⊢; omega
      | discrete vals => simp only [isNumeric, width, List.filter_cons, if_true, if_false, Bool.false_eq_true, List.length_cons, List.map_cons, List.sum_cons] at j1 j2 ⊢; omega
      | categorical labels => exact absurd (by simp) (hno labels)
      | bandit arms => simp [Kind.isBandit] at hk
    · rintro ⟨labels, hl⟩
      cases k with
      | continuous lo hi =>
        obtain ⟨j1, j2⟩ := i2 ⟨labels, by simpa using hl⟩
        simp only [isNumeric, width, List.filter_cons, if_true, if_false, Bool.false_eq_true, List.length_cons, List.map_cons, List.sum_cons] at j1 j2 ⊢; omega
      | discrete vals =>
        obtain ⟨j1, j2⟩ := i2 ⟨labels, by simpa using hl⟩
        simp only [isNumeric, width, List.filter_cons, if_true, if_false, Bool.false_eq_true, List.length_cons, List.map_cons, List.sum_cons] at j1 j2 ⊢; omega
      | categorical ls =>
        have hpos : 0 < ls.length := List.length_pos_of_ne_nil hsk.1
        simp only [isNumeric, width, List.filter_cons, if_true, if_false, Bool.false_eq_true, List.length_cons, List.map_cons, List.sum_cons] at hle' hfl' ⊢; omega
      | bandit arms => simp [Kind.isBandit] at hk

/-- C110 (partial: spaces with categorical variables are refused, see `C110_categorical_counterexample`). In every space
of continuous and discrete variables the entropy search acquisition accepts every row of the model (it returns the
value of the stored belief), and the sampler of the representer points starts from a random design in the domain
whenever the number of points is even and at least twice the number of variables. -/
theorem C110_entropy_spaces_partial {config : List Desc} {sp : Space} (h : designSpace config none = .ok sp)
    (hb : sp.hasBandit = false) (hs : ∀ k ∈ kindsOf config, Samplable k)
    (hcat : ∀ labels, Kind.categorical labels ∉ kindsOf config) :
    (∀ (W : List ℝ) (post : Posterior) (samples : List (List ℝ × LogVal)) (prm : ESParams) (z : Vec),
      z.length = sp.modelDim →
      esEvaluate sp W post samples (some prm) z = (.ok [esAcq W post prm (z.map fun q : ℚ => (q : ℝ))], some prm)) ∧
    (∀ {α : Type} (n : Nat) (o : DesignOracle) (run : Mat → Py α), (∀ i, UnitDraw (o.draws i)) →
      n % 2 = 0 → 2 * (kindsOf config).length ≤ n →
      ∃ m, ensembleSamples sp n (initialDesign "random" sp o n) run = run m ∧ m.length = n ∧
        ∀ row ∈ m, ObjDomain (kindsOf config) row) := by
  have hk := space_kinds_eq h
  have hnb : ∀ k ∈ kindsOf config, k.isBandit = false := by rw [← hk]; exact isBandit_false (space_noBandit h hb)
  obtain ⟨c1, c2⟩ := (columns_eq hnb hs).1 hcat
  have hd := inputDim_eq h hb
  constructor
  · intro W post samples prm z hz
    unfold esEvaluate esCompute
    rw [hd]
    rw [modelDim_eq, hk, ← c1] at hz
    simp [hz]
  · intro α n o run hu he hn
    obtain ⟨m, m1, m2, m3⟩ := C15_random_design h hb hs o hu n
    refine ⟨m, ?_, m2, m3⟩
    unfold ensembleSamples
    rw [m1, hd]
    have hlen : ∀ row ∈ m, row.length = ((kindsOf config).filter isNumeric).length := by
      intro row hr
      rw [c2]
      exact (m3 row hr).length_eq.symm
    have hany : (m.any fun x => x.length != ((kindsOf config).filter isNumeric).length) = false := by
      rw [List.any_eq_false]
      intro row hr
      simp [hlen row hr]
    dsimp only
    rw [if_neg (by omega), hany]
    simp

/-- C110 (negation of the full property). In every space with a categorical variable, every row of the model is refused
with a `ValueError`, and the sampler never starts. -/
theorem C110_categorical_counterexample {config : List Desc} {sp : Space} (h : designSpace config none = .ok sp)
    (hb : sp.hasBandit = false) (hs : ∀ k ∈ kindsOf config, Samplable k)
    (hcat : ∃ labels, Kind.categorical labels ∈ kindsOf config) :
    (∀ (W : List ℝ) (post : Posterior) (samples : List (List ℝ × LogVal)) (st : Option ESParams) (z : Vec),
      z.length = sp.modelDim → esEvaluate sp W post samples st z = (.error .valueError, st)) ∧
    (∀ {α : Type} (n : Nat) (o : DesignOracle) (run : Mat → Py α), 0 < n → (∀ i, UnitDraw (o.draws i)) →
      ∃ e, ensembleSamples sp n (initialDesign "random" sp o n) run = .error e) := by
  have hk := space_kinds_eq h
  have hnb : ∀ k ∈ kindsOf config, k.isBandit = false := by rw [← hk]; exact isBandit_false (space_noBandit h hb)
  obtain ⟨c1, c2⟩ := (columns_eq hnb hs).2 hcat
  have hd := inputDim_eq h hb
  constructor
  · intro W post samples st z hz
    unfold esEvaluate esCompute
    rw [hd]
    rw [modelDim_eq, hk] at hz
    dsimp only
    rw [if_pos (by omega)]
  · intro α n o run hn hu
    obtain ⟨m, m1, m2, m3⟩ := C15_random_design h hb hs o hu n
    unfold ensembleSamples
    rw [m1, hd]
    dsimp only
    split_ifs with h1 h2
    · exact ⟨_, rfl⟩
    · exact ⟨_, rfl⟩
    · exfalso
      apply h2
      obtain ⟨row, hr⟩ := List.exists_mem_of_length_pos (l := m) (by omega)
      rw [List.any_eq_true]
      refine ⟨row, hr, ?_⟩
      have := (m3 row hr).length_eq
      simp only [bne_iff_ne, ne_eq]
      omega

/-- The default number of representer points, 50, suffices for at most 25 variables. -/
theorem C110_many_variables_counterexample {config : List Desc} {sp : Space} (h : designSpace config none = .ok sp)
    (hb : sp.hasBandit = false) (hs : ∀ k ∈ kindsOf config, Samplable k) (h25 : 25 < (kindsOf config).length)
    {α : Type} (restarts : Mat) (run : Mat → Py α) (hcat : ∀ labels, Kind.categorical labels ∉ kindsOf config) :
    ensembleSamples sp 50 (.ok restarts) run = .error .exception := by
  have hk := space_kinds_eq h
  have hnb : ∀ k ∈ kindsOf config, k.isBandit = false := by rw [← hk]; exact isBandit_false (space_noBandit h hb)
  obtain ⟨-, c2⟩ := (columns_eq hnb hs).1 hcat
  unfold ensembleSamples
  rw [inputDim_eq h hb]
  dsimp only
  rw [if_pos (by omega)]

/-- A continuous and a discrete variable, with and without a categorical one. -/
example :
    ((designSpace [{ name := "x", type := some "continuous", domain := some (.flat [0, 1]) },
      { name := "k", type := some "discrete", domain := some (.flat [1, 2, 5]) }] none).bind fun sp =>
        (ensembleSamples sp 4 (initialDesign "random" sp exOracle 4) fun m => .ok m.length)) = .ok 4 ∧
    ((designSpace [{ name := "x", type := some "continuous", domain := some (.flat [0, 1]) },
      { name := "c", type := some "categorical", domain := some (.flat [0, 1, 2]) }] none).bind fun sp =>
        (ensembleSamples sp 4 (initialDesign "random" sp exOracle 4) fun m => .ok m.length)) = .error .valueError := by
  constructor <;> decide +kernel

end GPyOpt.Props
