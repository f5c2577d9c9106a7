import Verif.Props.EntropySearch

/-!
# The second order term of the predicted change (C88)
-/

namespace GPyOpt.Props

open Matrix
open GPyOpt.Spec

/-! ## The second derivative along a direction -/

/-- The derivative of the unnormalized log-probability of point `k` when the means move in the direction `dm`. -/
noncomputable def pathD {n : Nat} (mu : RVec (n + 1)) (S : RMat (n + 1)) (dm : RVec (n + 1)) (t : ℝ)
    (k : Fin (n + 1)) : ℝ :=
  match epRun mu S k 1 with
  | some st => ∑ j, epDMu k st.P st.MP (mu + t • dm) S j * dm j
  | none => 0

theorem path_line {n : Nat} (mu dm : RVec (n + 1)) (t : ℝ) : HasDerivAt (fun t : ℝ => mu + t • dm) dm t := by
  have := ((hasDerivAt_id t).smul_const dm).const_add mu
  simpa using this

theorem path_first {n : Nat} (mu : RVec (n + 1)) (S : RMat (n + 1)) (dm : RVec (n + 1)) (t : ℝ) (k : Fin (n + 1)) :
    HasDerivAt (fun t : ℝ => frozenLogP mu S (mu + t • dm) S k) (pathD mu S dm t k) t := by
  unfold frozenLogP pathD
  cases epRun mu S k 1 with
  | none => exact hasDerivAt_const t (-500 : ℝ)
  | some st =>
    obtain ⟨L, hL, hLv⟩ := (C82_mean_derivatives k st.P st.MP st.logS (mu + t • dm) S).1
    have h2 := hL.comp_hasDerivAt t (path_line mu dm t)
    rw [hLv dm] at h2
    exact h2

theorem path_second {n : Nat} (mu : RVec (n + 1)) (S : RMat (n + 1)) (dm : RVec (n + 1)) (t : ℝ) (k : Fin (n + 1)) :
    HasDerivAt (fun t : ℝ => pathD mu S dm t k) (∑ i, ∑ j, rawDMuDMu mu S k i j * (dm i * dm j)) t := by
  unfold pathD rawDMuDMu minFaktor
  cases epRun mu S k 1 with
  | none => simpa using hasDerivAt_const t (0 : ℝ)
  | some st =>
    refine HasDerivAt.fun_sum fun i _ => ?_
    obtain ⟨L, hL, hLv⟩ := (C82_mean_derivatives k st.P st.MP st.logS (mu + t • dm) S).2 i
    have h2 := (hL.comp_hasDerivAt t (path_line mu dm t)).mul_const (dm i)
    rw [hLv dm, Finset.sum_mul] at h2
    have e : ∀ j, epDMuDMu k st.P S i j * dm j * dm i = epDMuDMu k st.P S i j * (dm i * dm j) := fun j => by ring
    simp only [e] at h2
    exact h2

/-- `Zm` of `joint_min`: the derivative of the logarithm of the sum of the unnormalized probabilities. -/
noncomputable def sumSlope {n : Nat} (mu : RVec (n + 1)) (S : RMat (n + 1)) : RVec (n + 1) :=
  fun j => epZm (rawLogP mu S) (rawDMu mu S) j

theorem quadratic_form {n : Nat} (mu : RVec (n + 1)) (S : RMat (n + 1)) (dm : RVec (n + 1)) (k : Fin (n + 1)) :
    ∑ i, ∑ j, adjustSecond (rawLogP mu S) (rawDMu mu S) (rawDMuDMu mu S) k i j * (dm i * dm j)
      = trueSecond (rawLogP mu S) (fun k (_ : Fin (n + 1)) => pathD mu S dm 0 k)
          (fun k _ _ => ∑ i, ∑ j, rawDMuDMu mu S k i j * (dm i * dm j)) k 0 0
        + ∑ i, ∑ j, (sumSlope mu S j - sumSlope mu S i) * sumSlope mu S j * (dm i * dm j) := by
  set q := rawLogP mu S with hq
  set d := rawDMu mu S with hd
  set d2 := rawDMuDMu mu S with hd2
  have hD : ∀ k, pathD mu S dm 0 k = ∑ i, d k i * dm i := by
    intro k
    unfold pathD
    rw [hd]
    unfold rawDMu minFaktor
    cases epRun mu S k 1 with
    | none => simp
    | some st => simp
  have hz : epZm q (fun k (_ : Fin (n + 1)) => pathD mu S dm 0 k) 0 = ∑ i, epZm q d i * dm i := by
    simp only [epZm, hD, div_mul_eq_mul_div, ← Finset.sum_div]
    congr 1
    simp only [Finset.mul_sum, Finset.sum_mul]
    rw [Finset.sum_comm]
    exact Finset.sum_congr rfl fun i _ => Finset.sum_congr rfl fun j _ => by ring
  have hgg : (∑ k', (∑ i, ∑ j, d2 k' i j * (dm i * dm j) + pathD mu S dm 0 k' * pathD mu S dm 0 k') * Real.exp (q k'))
      = ∑ i, ∑ j, (∑ k', (d2 k' i j + d k' i * d k' j) * Real.exp (q k')) * (dm i * dm j) := by
    have h1 : ∀ k', (∑ i, ∑ j, d2 k' i j * (dm i * dm j) + pathD mu S dm 0 k' * pathD mu S dm 0 k') * Real.exp (q k')
        = ∑ i, ∑ j, (d2 k' i j + d k' i * d k' j) * Real.exp (q k') * (dm i * dm j) := by
      intro k'
      rw [hD, Finset.sum_mul_sum, ← Finset.sum_add_distrib, Finset.sum_mul]
      refine Finset.sum_congr rfl fun i _ => ?_
      rw [← Finset.sum_add_distrib, Finset.sum_mul]
      exact Finset.sum_congr rfl fun j _ => by ring
    simp only [h1]
    rw [Finset.sum_comm]
    refine Finset.sum_congr rfl fun i _ => ?_
    rw [Finset.sum_comm]
    exact Finset.sum_congr rfl fun j _ => by rw [Finset.sum_mul]
  unfold trueSecond
  simp only [hz, hgg, Finset.sum_mul_sum, Finset.sum_div]
  simp only [← Finset.sum_sub_distrib, ← Finset.sum_add_distrib]
  refine Finset.sum_congr rfl fun i _ => Finset.sum_congr rfl fun j _ => ?_
  simp only [adjustSecond, sumSlope, ← hq, ← hd]
  ring

/-- **C88.** The second order term: the quadratic form that the prediction uses is the second derivative of the
normalized log-probability in the direction of the innovation (messages held fixed) exactly if the sums `Zm` satisfy
a quadratic condition. -/
theorem C88_second_order_partial {n : Nat} (post : Posterior) (points : Fin (n + 1) → List ℝ) (logs : RVec (n + 1))
    (x : List ℝ) (k : Fin (n + 1)) :
    let mu : RVec (n + 1) := fun i => post.mean (points i)
    let S := post.predictCovariance true points
    let prm := esBelief post points logs
    let dm := innovMean post points x
    ∃ slope : ℝ → ℝ, (∀ t, HasDerivAt (fun t : ℝ => normalizeLogP (frozenLogP mu S (mu + t • dm) S) k) (slope t) t) ∧
      (HasDerivAt slope (∑ i, ∑ j, prm.dMuDMu k i j * (dm i * dm j)) 0 ↔
        ∑ i, ∑ j, (sumSlope mu S j - sumSlope mu S i) * sumSlope mu S j * (dm i * dm j) = 0) := by
  intro mu S prm dm
  refine ⟨fun t => adjustFirst (frozenLogP mu S (mu + t • dm) S) (fun k (_ : Unit) => pathD mu S dm t k) k (), ?_, ?_⟩
  · intro t
    exact C83_first_derivatives (fun (_ : Unit) t => frozenLogP mu S (mu + t • dm) S) _ _ () t rfl
      (fun k' => path_first mu S dm t k') k
  · have h1 := trueSecond_hasDerivAt (fun t => frozenLogP mu S (mu + t • dm) S) (fun t k => pathD mu S dm t k)
      (fun k (_ : Fin (n + 1)) => pathD mu S dm 0 k) (fun k _ _ => ∑ i, ∑ j, rawDMuDMu mu S k i j * (dm i * dm j))
      (rawLogP mu S) 0 0 0 (by rw [zero_smul, add_zero, frozenLogP_self]) (fun _ => rfl)
      (fun k' => path_first mu S dm 0 k') (fun k' => path_second mu S dm 0 k') k
    have h2 := quadratic_form mu S dm k
    constructor
    · intro h3
      have h4 := h3.unique h1
      have h5 : ∑ i, ∑ j, adjustSecond (rawLogP mu S) (rawDMu mu S) (rawDMuDMu mu S) k i j * (dm i * dm j) = _ := h4
      rw [h5] at h2
      linarith
    · intro h3
      rw [h3, add_zero] at h2
      rw [← h2] at h1
      exact h1

/-! ## An actual belief for which it is wrong -/

/-- The derivative `min_faktor` yields for one factor. -/
theorem epDMu_two (k : Fin 2) (P MP : RVec 1) (Mu : RVec 2) (Sigma : RMat 2) (hS : Sigma.IsSymm) (hP : 0 ≤ P 0)
    (hv : 0 ≤ ltcVc k (k.succAbove 0) Sigma) (j : Fin 2) :
    epDMu (n := 1) k P MP Mu Sigma j
      = (MP 0 - P 0 * ltcM k (k.succAbove 0) Mu) / (1 + P 0 * ltcVc k (k.succAbove 0) Sigma)
        * factorDir k (k.succAbove 0) j := by
  set v := ltcVc k (k.succAbove 0) Sigma with hvd
  set m := ltcM k (k.succAbove 0) Mu with hmd
  set c := factorDir k (k.succAbove 0) with hc
  have hpos : 1 + P 0 * v ≠ 0 := by positivity
  obtain ⟨L, hL, hLv⟩ := (C82_mean_derivatives (n := 1) k P MP (fun _ => 0) Mu Sigma).1
  have h0 : Mu = Mu + (0 : ℝ) • (Pi.single j 1 : RVec 2) := by rw [zero_smul, add_zero]
  rw [h0] at hL
  have h1 := hL.comp_hasDerivAt (0 : ℝ) (path_line (n := 1) Mu (Pi.single j 1) 0)
  rw [hLv] at h1
  beta_reduce at h1
  have e1 : ∑ i, epDMu (n := 1) k P MP Mu Sigma i * (Pi.single j 1 : RVec 2) i = epDMu (n := 1) k P MP Mu Sigma j := by
    simp [Pi.single_apply]
  rw [e1] at h1
  have hm : ∀ t : ℝ, ltcM k (k.succAbove 0) (Mu + t • (Pi.single j 1 : RVec 2)) = m + t * c j := by
    intro t
    change (_ : ℝ) / √2 = (_ : ℝ) / √2 + _
    rw [← factorDir_dot, ← factorDir_dot, dotProduct_add, dotProduct_smul, ← hc, smul_eq_mul]
    have : c ⬝ᵥ (Pi.single j 1 : RVec 2) = c j := by simp
    rw [this]
  have h2 : HasDerivAt (fun t : ℝ => epLogZ (n := 1) k P MP (fun _ => 0) (Mu + t • (Pi.single j 1 : RVec 2)) Sigma)
      ((MP 0 - P 0 * m) / (1 + P 0 * v) * c j) 0 := by
    have hf : (fun t : ℝ => epLogZ (n := 1) k P MP (fun _ => 0) (Mu + t • (Pi.single j 1 : RVec 2)) Sigma)
        = fun t => 1 / 2 * (MP 0 ^ 2 * v - P 0 / (1 + P 0 * v) * (m + t * c j + MP 0 * v) ^ 2
            - Real.log (1 + P 0 * v)) + MP 0 * (m + t * c j) + 0
            - 1 / 2 * (if MP 0 ≠ 0 then MP 0 * MP 0 / P 0 else 0) := by
      funext t
      rw [epLogZ_two k P MP (fun _ => 0) _ Sigma hS hP hv, hm]
    rw [hf]
    have hl : HasDerivAt (fun t : ℝ => m + t * c j) (c j) 0 := by
      simpa using ((hasDerivAt_id (0 : ℝ)).mul_const (c j)).const_add m
    have h3 := (((((((hl.add_const (MP 0 * v)).pow 2).const_mul (P 0 / (1 + P 0 * v))).const_sub
      (MP 0 ^ 2 * v)).sub_const (Real.log (1 + P 0 * v))).const_mul (1 / 2)).add (hl.const_mul (MP 0))).add_const 0
    have h4 := h3.sub_const (1 / 2 * (if MP 0 ≠ 0 then MP 0 * MP 0 / P 0 else 0))
    refine (h4.congr_deriv ?_)
    field_simp
    ring
  exact h1.unique h2

/-- Two points whose values have a large variance, and a third location. -/
noncomputable def wideFeature (x : List ℝ) : Fin 3 → ℝ :=
  if x = [0] then ![10 ^ 4, 0, 1] else if x = [1] then ![0, 10 ^ 4, 1] else ![0, 0, 1]

/-- A posterior with outputs of the order of ten thousands. -/
noncomputable def widePosterior : Posterior where
  mean := fun x => if x = [1] then 3 * 10 ^ 4 else 0
  cov := fun x y => ∑ i, wideFeature x i * wideFeature y i
  noise := 0

noncomputable def widePoints : Fin 2 → List ℝ := ![[0], [1]]

theorem wideCov_00 : widePosterior.cov [0] [0] = 10 ^ 8 + 1 := by
  simp [widePosterior, wideFeature, Fin.sum_univ_three]
  norm_num

theorem wideCov_11 : widePosterior.cov [1] [1] = 10 ^ 8 + 1 := by
  simp [widePosterior, wideFeature, Fin.sum_univ_three]
  norm_num

theorem wideCov_01 : widePosterior.cov [0] [1] = 1 := by
  simp [widePosterior, wideFeature, Fin.sum_univ_three]

theorem wideCov_10 : widePosterior.cov [1] [0] = 1 := by
  simp [widePosterior, wideFeature, Fin.sum_univ_three]

theorem wideCov : widePosterior.predictCovariance true widePoints = !![10 ^ 8 + 1, 1; 1, 10 ^ 8 + 1] := by
  have hn : widePosterior.noise = 0 := rfl
  ext i j
  fin_cases i <;> fin_cases j <;>
    simp [Posterior.predictCovariance, Posterior.fullCov, widePoints, wideCov_00, wideCov_01, wideCov_10, wideCov_11,
      hn] <;> norm_num

theorem wideCov_posDef : (!![10 ^ 8 + 1, 1; 1, 10 ^ 8 + 1] : RMat 2).PosDef := by
  have e : (!![10 ^ 8 + 1, 1; 1, 10 ^ 8 + 1] : RMat 2)
      = (10 : ℝ) ^ 8 • 1 + vecMulVec (fun _ => 1) (star fun _ => 1) := by
    ext i j
    fin_cases i <;> fin_cases j <;> simp [vecMulVec_apply]
  rw [e]
  exact (PosDef.one.smul (by positivity)).add_posSemidef (posSemidef_vecMulVec_self_star _)

/-- The first derivatives of the two unnormalized log-probabilities, at means 0 and 30000. -/
theorem wide_slopes :
    ∃ a b : ℝ, a < 0 ∧ 0 < b ∧
      (∀ j, rawDMu (n := 1) ![0, 3 * 10 ^ 4] !![10 ^ 8 + 1, 1; 1, 10 ^ 8 + 1] 0 j = a * factorDir 0 1 j) ∧
      (∀ j, rawDMu (n := 1) ![0, 3 * 10 ^ 4] !![10 ^ 8 + 1, 1; 1, 10 ^ 8 + 1] 1 j = b * factorDir 1 0 j) := by
  set S : RMat 2 := !![10 ^ 8 + 1, 1; 1, 10 ^ 8 + 1] with hSd
  set mu : RVec 2 := ![0, 3 * 10 ^ 4] with hmu
  have hS : S.PosDef := wideCov_posDef
  have hsym := isSymm_of_posDef hS
  have s0 : (0 : Fin 2).succAbove 0 = 1 := rfl
  have s1 : (1 : Fin 2).succAbove 0 = 0 := rfl
  have v0 : ltcVc 0 1 S = 10 ^ 8 := by simp [ltcVc, hSd]; norm_num
  have v1 : ltcVc 1 0 S = 10 ^ 8 := by simp [ltcVc, hSd]; norm_num
  set m := 3 * 10 ^ 4 / √2 with hm
  have m0 : ltcM 0 1 mu = m := by simp [ltcM, hmu, hm]
  have m1 : ltcM 1 0 mu = -m := by simp [ltcM, hmu, hm, neg_div]
  have hmpos : 0 < m := by positivity
  have hm2 : m ^ 2 = 45 * 10 ^ 7 := by
    rw [hm, div_pow, Real.sq_sqrt (by norm_num)]; norm_num
  have hmlo : 2 * 10 ^ 4 ≤ m := by
    by_contra h
    push Not at h
    nlinarith
  have hmhi : m ≤ 22 * 10 ^ 3 := by
    by_contra h
    push Not at h
    nlinarith
  have hsv : √((10 : ℝ) ^ 8) = 10 ^ 4 := by
    rw [show (10 : ℝ) ^ 8 = (10 ^ 4) ^ 2 by norm_num]
    exact Real.sqrt_sq (by positivity)
  set w := √((10 : ℝ) ^ 8 + 1 / 10 ^ 25) with hw
  have hwpos : 0 < w := Real.sqrt_pos.2 (by positivity)
  have hwsq : w ^ 2 = 10 ^ 8 + 1 / 10 ^ 25 := Real.sq_sqrt (by positivity)
  have hwlo : (10 : ℝ) ^ 4 ≤ w := by rw [← hsv]; exact Real.sqrt_le_sqrt (by norm_num)
  set z := m / w with hz
  have hz0 : 0 < z := by positivity
  have hz6 : z ≤ 6 := by
    rw [hz, div_le_iff₀ hwpos]
    linarith
  have hzsq : 4 ≤ z ^ 2 := by
    rw [hz, div_pow, hwsq, hm2, le_div_iff₀ (by positivity)]
    norm_num
  have heps : epEps = 1 / 2 ^ 23 := rfl
  have hepos : 0 < epEps := by rw [heps]; positivity
  refine ⟨(max epEps (ltMessage (npdf z / ncdf z) m (10 ^ 8)).2.2
      - max epEps (ltMessage (npdf z / ncdf z) m (10 ^ 8)).2.1 * m)
        / (1 + max epEps (ltMessage (npdf z / ncdf z) m (10 ^ 8)).2.1 * 10 ^ 8),
    (max epEps (ltMessage (npdf (-z) / ncdf (-z)) (-m) (10 ^ 8)).2.2
      - max epEps (ltMessage (npdf (-z) / ncdf (-z)) (-m) (10 ^ 8)).2.1 * -m)
        / (1 + max epEps (ltMessage (npdf (-z) / ncdf (-z)) (-m) (10 ^ 8)).2.1 * 10 ^ 8), ?_, ?_, ?_, ?_⟩
  · set e := npdf z / ncdf z with he
    have he0 : 0 < e := div_pos (npdf_pos z) (ncdf_pos z)
    have he1 : e ≤ 16 / 100 := by
      have hc : 1 / 2 ≤ ncdf z := by
        have h0 : ncdf 0 = 1 / 2 := by
          have := ncdf_neg 0
          rw [neg_zero] at this
          linarith
        rw [← h0]
        exact ncdf_strictMono.monotone hz0.le
      have hp : npdf z ≤ 8 / 100 := by
        have h5 : Real.exp (-(1 / 2) * z ^ 2) ≤ 1 / 5 := by
          have h6 : Real.exp (-(1 / 2) * z ^ 2) ≤ Real.exp (-2) := Real.exp_le_exp.2 (by linarith)
          have h7 : (5 : ℝ) ≤ Real.exp 2 := by
            have h8 := Real.quadratic_le_exp_of_nonneg (x := 2) (by norm_num)
            linarith
          rw [Real.exp_neg, ← one_div] at h6
          exact h6.trans (one_div_le_one_div_of_le (by norm_num) h7)
        have h10 : 5 / 2 ≤ √(2 * Real.pi) := by
          apply Real.le_sqrt_of_sq_le
          have := Real.pi_gt_d2
          linarith
        unfold npdf
        rw [div_le_iff₀ (by linarith)]
        linarith
      rw [he, div_le_iff₀ (ncdf_pos z)]
      linarith
    have hbeta : (ltMessage e m (10 ^ 8)).1 = e * (e + m / 10 ^ 4) := by
      change e / √(10 ^ 8) * (e / √(10 ^ 8) * 10 ^ 8 + m) = _
      rw [hsv]
      ring
    set beta := (ltMessage e m (10 ^ 8)).1 with hb
    have hmd : m / 10 ^ 4 ≤ 22 / 10 := by rw [div_le_iff₀ (by positivity)]; linarith
    have hmd0 : 0 ≤ m / 10 ^ 4 := by positivity
    have hb1 : beta ≤ 4 / 10 := by
      rw [hbeta]
      nlinarith
    have hb0 : 0 ≤ beta := by rw [hbeta]; positivity
    have hr : beta / (1 - beta) ≤ 7 / 10 := by
      rw [div_le_iff₀ (by linarith)]
      linarith
    have hr0 : 0 ≤ beta / (1 - beta) := div_nonneg hb0 (by linarith)
    have hp : (ltMessage e m (10 ^ 8)).2.1 ≤ epEps := by
      change beta / (1 - beta) / 10 ^ 8 ≤ _
      rw [heps, div_le_iff₀ (by positivity)]
      refine hr.trans ?_
      norm_num
    have hmp : (ltMessage e m (10 ^ 8)).2.2 ≤ 2 / 10 ^ 4 := by
      have e1 : (ltMessage e m (10 ^ 8)).2.2
          = (beta / (1 - beta) * (e + m / 10 ^ 4) + e) / 10 ^ 4 := by
        change beta / (1 - beta) * (e / √(10 ^ 8) + m / 10 ^ 8) + e / √(10 ^ 8) = _
        rw [hsv]
        ring
      rw [e1]
      apply div_le_div_of_nonneg_right _ (by positivity)
      have h11 : beta / (1 - beta) * (e + m / 10 ^ 4) ≤ 7 / 10 * (16 / 100 + 22 / 10) :=
        mul_le_mul hr (by linarith) (by positivity) (by norm_num)
      linarith
    rw [max_eq_left hp]
    apply div_neg_of_neg_of_pos
    · have h1 : max epEps (ltMessage e m (10 ^ 8)).2.2 ≤ 2 / 10 ^ 4 := max_le (by rw [heps]; norm_num) hmp
      have h2 : 2 / 10 ^ 4 < epEps * m := by
        rw [heps]
        have : (1 : ℝ) / 2 ^ 23 * (2 * 10 ^ 4) ≤ 1 / 2 ^ 23 * m := mul_le_mul_of_nonneg_left hmlo (by positivity)
        refine lt_of_lt_of_le ?_ this
        norm_num
      exact sub_neg.2 (h1.trans_lt h2)
    · positivity
  · set A := max epEps (ltMessage (npdf (-z) / ncdf (-z)) (-m) (10 ^ 8)).2.1 with hA
    set B := max epEps (ltMessage (npdf (-z) / ncdf (-z)) (-m) (10 ^ 8)).2.2 with hB
    have hA0 : 0 < A := lt_of_lt_of_le hepos (le_max_left _ _)
    have hB0 : 0 < B := lt_of_lt_of_le hepos (le_max_left _ _)
    apply div_pos
    · nlinarith [mul_pos hA0 hmpos]
    · positivity
  · intro j
    obtain ⟨st, hrun, hP, hMP, -⟩ := epLoop_two (k := 0) (Mu := mu) hS (z := z)
      (by rw [s0, m0, v0]) (by linarith) hz6
      (beta := (ltMessage (npdf z / ncdf z) m (10 ^ 8)).1) (p := (ltMessage (npdf z / ncdf z) m (10 ^ 8)).2.1)
      (mp := (ltMessage (npdf z / ncdf z) m (10 ^ 8)).2.2) (by rw [s0, m0, v0])
    have h1 : rawDMu (n := 1) mu S 0 j = epDMu (n := 1) 0 st.P st.MP mu S j := by
      unfold rawDMu minFaktor
      rw [hrun]
      rfl
    have h2 := epDMu_two 0 st.P st.MP mu S hsym (by rw [hP]; exact hepos.le.trans (le_max_left _ _))
      (by rw [s0, v0]; positivity) j
    rw [h1, h2, hP, hMP, s0, m0, v0]
  · intro j
    obtain ⟨st, hrun, hP, hMP, -⟩ := epLoop_two (k := 1) (Mu := mu) hS (z := -z)
      (by rw [s1, m1, v1, neg_div]) (by linarith) (by linarith)
      (beta := (ltMessage (npdf (-z) / ncdf (-z)) (-m) (10 ^ 8)).1)
      (p := (ltMessage (npdf (-z) / ncdf (-z)) (-m) (10 ^ 8)).2.1)
      (mp := (ltMessage (npdf (-z) / ncdf (-z)) (-m) (10 ^ 8)).2.2) (by rw [s1, m1, v1])
    have h1 : rawDMu (n := 1) mu S 1 j = epDMu (n := 1) 1 st.P st.MP mu S j := by
      unfold rawDMu minFaktor
      rw [hrun]
      rfl
    have h2 := epDMu_two 1 st.P st.MP mu S hsym (by rw [hP]; exact hepos.le.trans (le_max_left _ _))
      (by rw [s1, v1]; positivity) j
    rw [h1, h2, hP, hMP, s1, m1, v1]

/-- C88 is false: a posterior with outputs of the order of ten thousands, two representer points and a location
correlated with both of them. The quadratic form that the prediction uses is not the second derivative of the
log-probability of any of the two points. -/
theorem C88_second_order_counterexample :
    (∀ (D : Nat) (pts : Fin D → List ℝ) (a : RVec D),
      0 ≤ ∑ i, ∑ j, a i * a j * widePosterior.fullCov true pts i j) ∧
    ∀ (logs : RVec 2) (k : Fin 2),
      let mu : RVec 2 := fun i => widePosterior.mean (widePoints i)
      let S := widePosterior.predictCovariance true widePoints
      let dm := innovMean widePosterior widePoints [2]
      S.PosDef ∧ ∃ slope : ℝ → ℝ,
        (∀ t, HasDerivAt (fun t : ℝ => normalizeLogP (n := 1) (frozenLogP (n := 1) mu S (mu + t • dm) S) k)
          (slope t) t) ∧
        ¬ HasDerivAt slope (∑ i : Fin 2, ∑ j : Fin 2, (esBelief (n := 1) widePosterior widePoints logs).dMuDMu k i j
          * (dm i * dm j)) 0 := by
  constructor
  · intro D pts a
    have e : ∑ i, ∑ j, a i * a j * widePosterior.fullCov true pts i j
        = ∑ l, (∑ i, a i * wideFeature (pts i) l) ^ 2 := by
      have h : ∀ l : Fin 3, (∑ i, a i * wideFeature (pts i) l) ^ 2
          = ∑ i, ∑ j, a i * wideFeature (pts i) l * (a j * wideFeature (pts j) l) := by
        intro l
        rw [sq, Finset.sum_mul_sum]
      simp only [h]
      rw [eq_comm, Finset.sum_comm]
      refine Finset.sum_congr rfl fun i _ => ?_
      rw [Finset.sum_comm]
      refine Finset.sum_congr rfl fun j _ => ?_
      have hn : widePosterior.noise = 0 := rfl
      simp only [Posterior.fullCov, of_apply, hn, ite_self, add_zero]
      rw [show widePosterior.cov (pts i) (pts j) = ∑ l, wideFeature (pts i) l * wideFeature (pts j) l from rfl,
        Finset.mul_sum]
      exact Finset.sum_congr rfl fun l _ => by ring
    rw [e]
    positivity
  · intro logs k mu S dm
    have hS : S = !![10 ^ 8 + 1, 1; 1, 10 ^ 8 + 1] := wideCov
    have hmu : mu = ![0, 3 * 10 ^ 4] := by
      funext i
      fin_cases i <;> simp [mu, widePosterior, widePoints]
    have hdm : ∀ i, dm i = 1 := by
      have hstd : widePosterior.std false [2] = 1 := by
        simp [Posterior.std, clippedStd, widePosterior, wideFeature, Fin.sum_univ_three]
        norm_num
      intro i
      simp only [dm, innovMean, hstd, div_one]
      fin_cases i <;> simp [widePosterior, widePoints, wideFeature, Fin.sum_univ_three]
    obtain ⟨slope, h1, h2⟩ := C88_second_order_partial (n := 1) widePosterior widePoints logs [2] k
    refine ⟨by rw [hS]; exact wideCov_posDef, slope, h1, ?_⟩
    rw [show (HasDerivAt slope (∑ i : Fin 2, ∑ j : Fin 2, (esBelief (n := 1) widePosterior widePoints logs).dMuDMu k i j
      * (dm i * dm j)) 0) = _ from propext h2]
    obtain ⟨a, b, ha, hb, r0, r1⟩ := wide_slopes
    have hc : ∀ f : Fin (1 + 1) → ℝ, ∑ k, f k = f 0 + f 1 := fun f => Fin.sum_univ_two f
    have hs2 : (0 : ℝ) < √2 := by positivity
    have f00 : factorDir (0 : Fin 2) 1 0 = -(1 / √2) := by simp [factorDir, neg_div]
    have f01 : factorDir (0 : Fin 2) 1 1 = 1 / √2 := by simp [factorDir]
    have f10 : factorDir (1 : Fin 2) 0 0 = 1 / √2 := by simp [factorDir]
    have f11 : factorDir (1 : Fin 2) 0 1 = -(1 / √2) := by simp [factorDir, neg_div]
    have hz0 : ∃ s : ℝ, 0 < s ∧ sumSlope (n := 1) mu S 0 = s ∧ sumSlope (n := 1) mu S 1 = -s := by
      rw [hS, hmu]
      set q := rawLogP (n := 1) ![0, 3 * 10 ^ 4] !![10 ^ 8 + 1, 1; 1, 10 ^ 8 + 1] with hq
      have hZ : 0 < epZ q := Finset.sum_pos (fun i _ => Real.exp_pos _) Finset.univ_nonempty
      refine ⟨(Real.exp (q 0) * -a + Real.exp (q 1) * b) / √2 / epZ q, ?_, ?_, ?_⟩
      · have := mul_pos (Real.exp_pos (q 0)) (neg_pos.2 ha)
        have := mul_pos (Real.exp_pos (q 1)) hb
        positivity
      · simp only [sumSlope, epZm, ← hq, hc]
        rw [r0, r1, f00, f10]
        congr 1
        ring
      · simp only [sumSlope, epZm, ← hq, hc]
        rw [r0, r1, f01, f11, ← neg_div]
        ring
    obtain ⟨s, hs, e0, e1⟩ := hz0
    change ¬ (∑ i : Fin (1 + 1), ∑ j : Fin (1 + 1), (sumSlope (n := 1) mu S j - sumSlope (n := 1) mu S i)
      * sumSlope (n := 1) mu S j * (dm i * dm j) = 0)
    simp only [hc, e0, e1, hdm]
    nlinarith [mul_pos hs hs]

end GPyOpt.Props
