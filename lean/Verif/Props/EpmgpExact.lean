import Verif.Props.EpmgpDeriv
import Verif.Lemmas.GaussMoments
import Mathlib.Analysis.Real.Pi.Bounds

/-!
# Moment matching and exactness of the expectation propagation (C85, C86)
-/

namespace GPyOpt.Props

open Matrix Filter MeasureTheory Set
open scoped Topology
open GPyOpt.Spec

/-! ## Moments of the truncated normal distribution -/

theorem probNonneg_eq (m s : ℝ) (hs : 0 < s) : probNonneg m s = ncdf (m / s) := by
  unfold probNonneg
  rw [gaussian_integral_Ici m s hs, ncdf_eq_integral]
  simp

theorem truncatedMean_eq (m s : ℝ) (hs : 0 < s) :
    truncatedMean m s = m + s * (npdf (m / s) / ncdf (m / s)) := by
  unfold truncatedMean
  rw [probNonneg_eq m s hs, gaussian_integral_Ici m s hs]
  have h := integral_Iic_quadratic m (-s) 0 (m / s)
  have e : ∀ t : ℝ, (m + -s * t + 0 * t ^ 2) * npdf t = (m - s * t) * npdf t := fun t => by ring
  simp only [e] at h
  rw [h]
  have := (ncdf_pos (m / s)).ne'
  field_simp
  ring

theorem truncatedVar_eq (m s : ℝ) (hs : 0 < s) :
    truncatedVar m s = s ^ 2 * (1 - npdf (m / s) / ncdf (m / s) * (npdf (m / s) / ncdf (m / s) + m / s)) := by
  unfold truncatedVar
  rw [probNonneg_eq m s hs, gaussian_integral_Ici m s hs, truncatedMean_eq m s hs]
  set e := npdf (m / s) / ncdf (m / s) with he
  have hp := (ncdf_pos (m / s)).ne'
  have hee : npdf (m / s) = e * ncdf (m / s) := by rw [he]; field_simp
  have h := integral_Iic_quadratic (s ^ 2 * e ^ 2) (2 * s ^ 2 * e) (s ^ 2) (m / s)
  have e1 : ∀ t : ℝ, (s ^ 2 * e ^ 2 + 2 * s ^ 2 * e * t + s ^ 2 * t ^ 2) * npdf t
      = (m - s * t - (m + s * e)) ^ 2 * npdf t := fun t => by ring
  simp only [e1] at h
  rw [h, hee]
  field_simp
  ring

/-! ## C85 -/

/-- Inside its range `log_relative_gauss` returns the ratio of density and distribution function, and the logarithm
of the latter. -/
theorem logRelativeGauss_eq {z : ℝ} (h1 : -6 ≤ z) (h2 : z ≤ 6) :
    logRelativeGauss z = (npdf z / ncdf z, Real.log (ncdf z), 0) := by
  have hn : 1 / 2 * erfc (-z / √2) = ncdf z := rfl
  unfold logRelativeGauss
  rw [if_neg (by linarith), if_neg (by linarith)]
  dsimp only
  rw [hn, Real.exp_sub, Real.exp_log (ncdf_pos z)]
  have h3 : Real.exp (-(1 / 2) * Real.log (2 * Real.pi)) = (√(2 * Real.pi))⁻¹ := by
    rw [Real.sqrt_eq_rpow, ← Real.rpow_neg (by positivity), Real.rpow_def_of_pos (by positivity)]
    congr 1
    ring
  have h4 : npdf z = Real.exp (-(1 / 2) * z ^ 2) / √(2 * Real.pi) := rfl
  rw [h4, ← Real.log_mul (by norm_num) Real.pi_ne_zero, mul_add, Real.exp_add, h3, ← div_eq_mul_inv, sq]

/-- **C85.** The message a step computes from the cavity (mean `m`, deviation `s`) turns the cavity into the normal
distribution with the mean and the variance of the cavity restricted to the half-line where the point under
consideration is not larger than the other one. -/
theorem C85_moment_matching (m s : ℝ) (hs : 0 < s) :
    let e := npdf (m / s) / ncdf (m / s)
    let msg := ltMessage e m (s ^ 2)
    0 < msg.1 ∧ msg.1 < 1 ∧ 0 < msg.2.1 ∧ 1 / s ^ 2 + msg.2.1 = 1 / truncatedVar m s ∧
      m / s ^ 2 + msg.2.2 = truncatedMean m s / truncatedVar m s := by
  intro e msg
  set u := m / s with hu
  have hp := ncdf_pos u
  have he0 : 0 < e := div_pos (npdf_pos u) hp
  have hee : npdf u = e * ncdf u := by
    change npdf u = npdf u / ncdf u * ncdf u
    field_simp
  have hm : m = u * s := by rw [hu]; field_simp
  have hsq : √(s ^ 2) = s := Real.sqrt_sq hs.le
  have hb : msg.1 = e * (e + u) := by
    change e / √(s ^ 2) * (e / √(s ^ 2) * s ^ 2 + m) = _
    rw [hsq, hm]
    field_simp
  have hb0 : 0 < msg.1 := by
    rw [hb]
    refine mul_pos he0 ?_
    have h1 := std_improvement_pos u
    rw [hee, show u * ncdf u + e * ncdf u = (e + u) * ncdf u by ring] at h1
    exact pos_of_mul_pos_left h1 hp.le
  have hb1 : msg.1 < 1 := by
    rw [hb]
    have h1 := truncated_variance_pos u
    rw [hee, show ncdf u ^ 2 - e * ncdf u * (u * ncdf u + e * ncdf u) = (1 - e * (e + u)) * ncdf u ^ 2 by ring] at h1
    have := pos_of_mul_pos_left h1 (sq_nonneg _)
    linarith
  have h1b : 1 - msg.1 ≠ 0 := by linarith
  have hpn : msg.2.1 = msg.1 / (1 - msg.1) / s ^ 2 := rfl
  have hmp : msg.2.2 = msg.1 / (1 - msg.1) * (e / s + m / s ^ 2) + e / s := by
    change msg.1 / (1 - msg.1) * (e / √(s ^ 2) + m / s ^ 2) + e / √(s ^ 2) = _
    rw [hsq]
  have hv : truncatedVar m s = s ^ 2 * (1 - msg.1) := by rw [truncatedVar_eq m s hs, hb]
  have hmean : truncatedMean m s = m + s * e := truncatedMean_eq m s hs
  refine ⟨hb0, hb1, ?_, ?_, ?_⟩
  · rw [hpn]
    have : 0 < 1 - msg.1 := by linarith
    positivity
  · rw [hpn, hv]
    field_simp
    ring
  · rw [hmp, hv, hmean]
    field_simp
    ring

/-- **C85.** In every state of the propagation the mean and the variance from which a step computes the message `i`
are those of the compared difference under the prior times all messages but `i`; the variance is positive. -/
theorem C85_cavity {n : Nat} (k : Fin (n + 1)) (gamma : ℝ) (Mu : RVec (n + 1)) (Sigma : RMat (n + 1))
    (hS : Sigma.PosDef) (st : EPState n) (h : EPReachable k gamma Mu Sigma st) (i : Fin n) :
    let c := factorDir k (k.succAbove i)
    let W := messagePrecision k Sigma (Function.update st.P i 0)
    let cav := ltCavity (ltcVc k (k.succAbove i) st.V) (ltcM k (k.succAbove i) st.M) (st.MP i) (st.P i)
    0 < cav.1 ∧ cav.1 = c ⬝ᵥ (W⁻¹ *ᵥ c) ∧
      cav.2 = c ⬝ᵥ (W⁻¹ *ᵥ messageShift k Mu Sigma (Function.update st.MP i 0)) := by
  intro c W cav
  obtain ⟨hP, hV, hVW, hM⟩ := C72_marginal k gamma Mu Sigma hS st h
  have hW : W.PosDef := messagePrecision_posDef k hS fun j => by
    by_cases hj : j = i
    · subst hj; simp
    · rw [Function.update_of_ne hj]; exact hP j
  have hWu : IsUnit W.det := (isUnit_iff_isUnit_det _).1 hW.isUnit
  have hsym : st.V.IsSymm := isSymm_of_posDef hV
  have hcne : c ≠ 0 := factorDir_ne_zero (Fin.succAbove_ne k i).symm
  have hw : 0 < c ⬝ᵥ (W⁻¹ *ᵥ c) := by
    have := hW.inv.dotProduct_mulVec_pos hcne
    simpa using this
  set w := c ⬝ᵥ (W⁻¹ *ᵥ c) with hwd
  have hprec : messagePrecision k Sigma st.P = W + st.P i • vecMulVec c c := by
    change Sigma⁻¹ + _ = Sigma⁻¹ + _ + _
    rw [sum_update_smul st.P i 0 fun j => vecMulVec (factorDir k (k.succAbove j)) (factorDir k (k.succAbove j)),
      zero_sub, neg_smul, add_assoc, neg_add_cancel_right]
  have hshift : messageShift k Mu Sigma st.MP
      = messageShift k Mu Sigma (Function.update st.MP i 0) + st.MP i • c := by
    change Sigma⁻¹ *ᵥ Mu + _ = Sigma⁻¹ *ᵥ Mu + _ + _
    rw [sum_update_smul st.MP i 0 fun j => factorDir k (k.succAbove j), zero_sub, neg_smul, add_assoc,
      neg_add_cancel_right]
  have hp := hP i
  -- the variance
  set cVc := ltcVc k (k.succAbove i) st.V with hcVc
  have hq : c ⬝ᵥ (st.V *ᵥ c) = cVc := factorDir_quad k _ hsym
  have e1 : cVc = w * (1 - st.P i * cVc) := by
    have h1 : (W + st.P i • vecMulVec c c) *ᵥ (st.V *ᵥ c) = c := by
      rw [← hprec, mulVec_mulVec, mul_eq_one_comm.1 hVW, one_mulVec]
    have h2 : W *ᵥ (st.V *ᵥ c) = (1 - st.P i * cVc) • c := by
      rw [add_mulVec, smul_mulVec, vecMulVec_mulVec, hq] at h1
      have h3 := eq_sub_of_add_eq h1
      rw [h3]
      ext a
      simp only [Pi.sub_apply, Pi.smul_apply, smul_eq_mul, MulOpposite.smul_eq_mul_unop, MulOpposite.unop_op]
      ring
    have h3 : st.V *ᵥ c = (1 - st.P i * cVc) • (W⁻¹ *ᵥ c) := by
      rw [← mulVec_smul, ← h2, mulVec_mulVec, nonsing_inv_mul _ hWu, one_mulVec]
    calc cVc = c ⬝ᵥ (st.V *ᵥ c) := hq.symm
      _ = _ := by rw [h3, dotProduct_smul, smul_eq_mul, mul_comm]
  have h1p : 1 - st.P i * cVc ≠ 0 := by
    intro h0
    rw [h0, mul_zero] at e1
    rw [e1, mul_zero, sub_zero] at h0
    exact one_ne_zero h0
  have hcav1 : cav.1 = w := by
    change max (cVc / (1 - st.P i * cVc)) 0 = w
    have : cVc / (1 - st.P i * cVc) = w := by rw [div_eq_iff h1p]; exact e1
    rw [this, max_eq_left hw.le]
  -- the mean
  set cM := ltcM k (k.succAbove i) st.M with hcM
  have hqM : c ⬝ᵥ st.M = cM := factorDir_dot k _ st.M
  set h0 := messageShift k Mu Sigma (Function.update st.MP i 0) with hh0
  have e2 : cM = c ⬝ᵥ (W⁻¹ *ᵥ h0) + w * (st.MP i - st.P i * cM) := by
    have h1 : (W + st.P i • vecMulVec c c) *ᵥ st.M = h0 + st.MP i • c := by rw [← hprec, hM, hshift]
    have h2 : W *ᵥ st.M = h0 + (st.MP i - st.P i * cM) • c := by
      rw [add_mulVec, smul_mulVec, vecMulVec_mulVec, hqM] at h1
      have h3 := eq_sub_of_add_eq h1
      rw [h3]
      ext a
      simp only [Pi.sub_apply, Pi.add_apply, Pi.smul_apply, smul_eq_mul, MulOpposite.smul_eq_mul_unop,
        MulOpposite.unop_op]
      ring
    have h3 : st.M = W⁻¹ *ᵥ h0 + (st.MP i - st.P i * cM) • (W⁻¹ *ᵥ c) := by
      rw [← mulVec_smul, ← mulVec_add, ← h2, mulVec_mulVec, nonsing_inv_mul _ hWu, one_mulVec]
    calc cM = c ⬝ᵥ st.M := hqM.symm
      _ = _ := by
        rw [h3, dotProduct_add, dotProduct_smul, smul_eq_mul, hwd]
        ring
  refine ⟨by rw [hcav1]; exact hw, hcav1, ?_⟩
  change cM + cav.1 * (st.P i * cM - st.MP i) = _
  rw [hcav1]
  linarith

/-- **C85 (partial).** The steps (damping 1): the new message is the one of `C85_moment_matching` for the cavity of
`C85_cavity`, except that the ratio is taken at the mean divided by the root of the variance plus `1e-25`. If that
quotient exceeds 6 the message is removed, below -6 the propagation is given up. Missing: messages below the
threshold of the code. -/
theorem C85_step_partial {n : Nat} (k : Fin (n + 1)) (st : EPState n) (i : Fin n) :
    let cav := ltCavity (ltcVc k (k.succAbove i) st.V) (ltcM k (k.succAbove i) st.M) (st.MP i) (st.P i)
    let z := cav.2 / √(cav.1 + 1 / 10 ^ 25)
    let msg := ltMessage (npdf z / ncdf z) cav.2 cav.1
    (|z| ≤ 6 → epEps ≤ msg.2.1 → epEps ≤ msg.2.2 → ∃ st' d, epStep k 1 st i = some (st', d) ∧
      st'.P = Function.update st.P i msg.2.1 ∧ st'.MP = Function.update st.MP i msg.2.2) ∧
    (6 < z → ∃ st' d, epStep k 1 st i = some (st', d) ∧
      st'.P = Function.update st.P i 0 ∧ st'.MP = Function.update st.MP i 0) ∧
    (z < -6 → epStep k 1 st i = none) := by
  intro cav z msg
  have hcav : ltCavity (ltcVc k (k.succAbove i) st.V) (ltcM k (k.succAbove i) st.M) (st.MP i) (st.P i) = cav := rfl
  have hz : cav.2 / √(cav.1 + 1 / 10 ^ 25) = z := rfl
  refine ⟨?_, ?_, ?_⟩
  · intro h6 hp hmp
    have hdp : ∀ a b : ℝ, epEps ≤ b → max (-a + epEps) (1 * (b - a)) = b - a := by
      intro a b hb
      rw [one_mul]
      exact max_eq_right (by linarith)
    have hm : ltMessage (npdf z / ncdf z) cav.2 cav.1 = (msg.1, msg.2.1, msg.2.2) := rfl
    simp only [epStep, ltFactor, hcav, hz, logRelativeGauss_eq (abs_le.1 h6).1 (abs_le.1 h6).2, hm, if_true,
      hdp _ _ hp, hdp _ _ hmp]
    refine ⟨_, _, rfl, ?_, ?_⟩
    · simp
    · simp
  · intro h6
    have hl : logRelativeGauss z = (0, 0, 1) := by
      unfold logRelativeGauss
      rw [if_neg (by linarith), if_pos h6]
    have h10 : ¬ ((1 : Int) = 0) := by decide
    have h11 : ¬ ((1 : Int) = -1) := by decide
    simp only [epStep, ltFactor, hcav, hz, hl, if_neg h10, if_neg h11]
    exact ⟨_, _, rfl, rfl, rfl⟩
  · intro h6
    have hl : logRelativeGauss z = (1, -(10 ^ 12), -1) := by
      unfold logRelativeGauss
      rw [if_pos h6]
    have h10 : ¬ ((-1 : Int) = 0) := by decide
    simp only [epStep, ltFactor, hcav, hz, hl, if_neg h10, if_true]

/-! ## C86: two points -/

/-- `logZ` for one factor. -/
theorem epLogZ_two (k : Fin 2) (P MP logS : RVec 1) (Mu : RVec 2) (Sigma : RMat 2) (hS : Sigma.IsSymm)
    (hP : 0 ≤ P 0) (hv : 0 ≤ ltcVc k (k.succAbove 0) Sigma) :
    let v := ltcVc k (k.succAbove 0) Sigma
    let m := ltcM k (k.succAbove 0) Mu
    epLogZ (n := 1) k P MP logS Mu Sigma
      = 1 / 2 * (MP 0 ^ 2 * v - P 0 / (1 + P 0 * v) * (m + MP 0 * v) ^ 2 - Real.log (1 + P 0 * v)) + MP 0 * m
        + logS 0 - 1 / 2 * (if MP 0 ≠ 0 then MP 0 * MP 0 / P 0 else 0) := by
  intro v m
  set c := factorDir k (k.succAbove 0) with hc
  have hq : c ⬝ᵥ (Sigma *ᵥ c) = v := factorDir_quad k _ hS
  have hm : c ⬝ᵥ Mu = m := factorDir_dot k _ Mu
  have hpos : 1 + P 0 * v ≠ 0 := by positivity
  have hr : epr (n := 1) k MP = MP 0 • c := by rw [epr_eq]; simp [hc]
  have hRR : epR (n := 1) k P * (epR (n := 1) k P)ᵀ = P 0 • vecMulVec c c := by
    rw [epR_mul_transpose (n := 1) k (P := P) (fun i => by rw [Fin.fin_one_eq_zero i]; exact hP)]
    simp [hc]
  have hcol : ∀ (i : Fin 1) (a : Fin 2), epR (n := 1) k P a i = √(P 0) * c a := by
    intro i a
    rw [Fin.fin_one_eq_zero i, epR_apply]
  have hI : epIRSR (epR (n := 1) k P) Sigma = (1 + P 0 * v) • (1 : RMat 1) := by
    ext i j
    have h1 : ((epR (n := 1) k P)ᵀ * Sigma * epR (n := 1) k P) i j = P 0 * v := by
      rw [Matrix.mul_assoc, Matrix.mul_apply, ← hq]
      simp only [Matrix.mul_apply, transpose_apply, hcol, dotProduct, mulVec]
      rw [Finset.mul_sum]
      refine Finset.sum_congr rfl fun a _ => ?_
      rw [Finset.mul_sum, Finset.mul_sum, Finset.mul_sum]
      refine Finset.sum_congr rfl fun b _ => ?_
      have := Real.mul_self_sqrt hP
      calc √(P 0) * c a * (Sigma a b * (√(P 0) * c b)) = (√(P 0) * √(P 0)) * (c a * (Sigma a b * c b)) := by ring
        _ = _ := by rw [this]
    rw [epIRSR, Matrix.add_apply, h1, Matrix.smul_apply, Fin.fin_one_eq_zero i, Fin.fin_one_eq_zero j,
      Matrix.one_apply_eq]
    simp
  have hA : epA (epR (n := 1) k P) Sigma = (P 0 / (1 + P 0 * v)) • vecMulVec c c := by
    have hinv : (epIRSR (epR (n := 1) k P) Sigma)⁻¹ = (1 + P 0 * v)⁻¹ • (1 : RMat 1) := by
      rw [hI]
      refine inv_eq_right_inv ?_
      rw [Matrix.smul_mul, Matrix.mul_smul, Matrix.one_mul, smul_smul, mul_inv_cancel₀ hpos, one_smul]
    have h1 : epR (n := 1) k P * ((epIRSR (epR (n := 1) k P) Sigma)⁻¹ * (epR (n := 1) k P)ᵀ)
        = (P 0 / (1 + P 0 * v)) • vecMulVec c c := by
      rw [hinv, Matrix.smul_mul, Matrix.one_mul, Matrix.mul_smul, hRR, smul_smul]
      congr 1
      field_simp
    have h2 : (vecMulVec c c)ᵀ = vecMulVec c c := by
      ext a b
      simp [vecMulVec_apply, mul_comm]
    unfold epA
    dsimp only
    rw [h1, transpose_smul, h2]
    module
  have hdet : (epIRSR (epR (n := 1) k P) Sigma).det = 1 + P 0 * v := by
    rw [hI, det_smul]
    simp
  have hb : c ⬝ᵥ epb Mu Sigma (MP 0 • c) = m + MP 0 * v := by
    rw [epb, dotProduct_add, mulVec_smul, dotProduct_smul, hm, hq, smul_eq_mul]
  unfold epLogZ
  dsimp only
  rw [hA, hr, hdet]
  have e1 : (MP 0 • c) ⬝ᵥ Sigma *ᵥ (MP 0 • c) = MP 0 ^ 2 * v := by
    rw [mulVec_smul, dotProduct_smul, smul_dotProduct, hq, smul_eq_mul, smul_eq_mul]
    ring
  have e2 : epb Mu Sigma (MP 0 • c) ⬝ᵥ ((P 0 / (1 + P 0 * v)) • vecMulVec c c) *ᵥ epb Mu Sigma (MP 0 • c)
      = P 0 / (1 + P 0 * v) * (m + MP 0 * v) ^ 2 := by
    rw [smul_mulVec, dotProduct_smul, vecMulVec_mulVec, hb, smul_eq_mul]
    congr 1
    have : epb Mu Sigma (MP 0 • c) ⬝ᵥ MulOpposite.op (m + MP 0 * v) • c
        = (m + MP 0 * v) * (c ⬝ᵥ epb Mu Sigma (MP 0 • c)) := by
      rw [op_smul_eq_smul, dotProduct_smul, dotProduct_comm, smul_eq_mul]
    rw [this, hb]
    ring
  have e3 : Mu ⬝ᵥ MP 0 • c = MP 0 * m := by
    rw [dotProduct_smul, dotProduct_comm, hm, smul_eq_mul]
  rw [e1, e2, e3]
  simp [epMpm]

/-- The cavity of the only factor is the prior, in every state. -/
theorem cavity_two (k : Fin 2) (gamma : ℝ) (Mu : RVec 2) (Sigma : RMat 2) (hS : Sigma.PosDef) (st : EPState 1)
    (h : EPReachable (n := 1) k gamma Mu Sigma st) :
    ltCavity (ltcVc k (k.succAbove 0) st.V) (ltcM k (k.succAbove 0) st.M) (st.MP 0) (st.P 0)
      = (ltcVc k (k.succAbove 0) Sigma, ltcM k (k.succAbove 0) Mu) := by
  obtain ⟨_, h2, h3⟩ := C85_cavity k gamma Mu Sigma hS st h 0
  have hsub : ∀ P : RVec 1, Function.update P 0 0 = fun _ => (0 : ℝ) := by
    intro P
    funext i
    rw [Fin.fin_one_eq_zero i, Function.update_self]
  have hu : IsUnit Sigma.det := (isUnit_iff_isUnit_det _).1 hS.isUnit
  have hW : (messagePrecision (n := 1) k Sigma fun _ => 0)⁻¹ = Sigma := by
    simp [messagePrecision, nonsing_inv_nonsing_inv _ hu]
  have hsh : messageShift (n := 1) k Mu Sigma (fun _ => 0) = Sigma⁻¹ *ᵥ Mu := by simp [messageShift]
  rw [hsub, hW, factorDir_quad k _ (isSymm_of_posDef hS)] at h2
  rw [hsub, hsub, hW, hsh, mulVec_mulVec, mul_nonsing_inv _ hu, one_mulVec, factorDir_dot] at h3
  exact Prod.ext h2 h3

/-- The logarithm of the normalization of the message. -/
noncomputable def twoLogS (lP e beta p v : ℝ) : ℝ :=
  lP - 1 / 2 * (Real.log beta - Real.log p - Real.log v) + e / √v * (e / √v) / (2 * beta) * v

theorem epStep_two {k : Fin 2} {Mu : RVec 2} {Sigma : RMat 2} (hS : Sigma.PosDef) {z : ℝ}
    (hz : z = ltcM k (k.succAbove 0) Mu / √(ltcVc k (k.succAbove 0) Sigma + 1 / 10 ^ 25)) (h1 : -6 ≤ z)
    (h2 : z ≤ 6) {beta p mp : ℝ}
    (hmsg : ltMessage (npdf z / ncdf z) (ltcM k (k.succAbove 0) Mu) (ltcVc k (k.succAbove 0) Sigma) = (beta, p, mp))
    (st : EPState 1) (h : EPReachable (n := 1) k 1 Mu Sigma st) :
    ∃ st', epStep (n := 1) k 1 st 0 = some (st', max (max epEps mp - st.MP 0) (max epEps p - st.P 0)) ∧
      st'.P 0 = max epEps p ∧ st'.MP 0 = max epEps mp ∧
      st'.logS 0 = twoLogS (Real.log (ncdf z)) (npdf z / ncdf z) beta (max epEps p)
        (ltcVc k (k.succAbove 0) Sigma) := by
  have hc := cavity_two k 1 Mu Sigma hS st h
  have hdp : ∀ a b : ℝ, max (-a + epEps) (1 * (b - a)) = max epEps b - a := by
    intro a b
    rw [one_mul, neg_add_eq_sub, max_sub_sub_right]
  simp only [epStep, ltFactor, hc, ← hz, logRelativeGauss_eq h1 h2, hmsg, if_true, hdp]
  refine ⟨_, rfl, ?_, ?_, ?_⟩
  · simp
  · simp
  · simp [twoLogS]

theorem epLoop_two {k : Fin 2} {Mu : RVec 2} {Sigma : RMat 2} (hS : Sigma.PosDef) {z : ℝ}
    (hz : z = ltcM k (k.succAbove 0) Mu / √(ltcVc k (k.succAbove 0) Sigma + 1 / 10 ^ 25)) (h1 : -6 ≤ z)
    (h2 : z ≤ 6) {beta p mp : ℝ}
    (hmsg : ltMessage (npdf z / ncdf z) (ltcM k (k.succAbove 0) Mu) (ltcVc k (k.succAbove 0) Sigma) = (beta, p, mp)) :
    ∃ st, epRun (n := 1) Mu Sigma k 1 = some st ∧ st.P 0 = max epEps p ∧ st.MP 0 = max epEps mp ∧
      st.logS 0 = twoLogS (Real.log (ncdf z)) (npdf z / ncdf z) beta (max epEps p)
        (ltcVc k (k.succAbove 0) Sigma) := by
  obtain ⟨s1, e1, p1, m1, l1⟩ := epStep_two hS hz h1 h2 hmsg (epInit (n := 1) Mu Sigma) .init
  obtain ⟨s2, e2, p2, m2, l2⟩ := epStep_two hS hz h1 h2 hmsg s1 (.step .init e1)
  have hl : List.finRange 1 = [0] := rfl
  set d0 := max (max epEps mp - (epInit (n := 1) Mu Sigma).MP 0) (max epEps p - (epInit (n := 1) Mu Sigma).P 0)
  have sw1 : epSweep (n := 1) k 1 (List.finRange 1) (epInit Mu Sigma) 0 = some (s1, 0 + |d0|) := by
    simp only [hl, epSweep, e1]
  have sw2 : epSweep (n := 1) k 1 (List.finRange 1) s1 0 = some (s2, 0) := by
    simp only [hl, epSweep, e2, p1, m1, sub_self, max_self, abs_zero, add_zero]
  unfold epRun
  rw [if_neg one_ne_zero]
  by_cases hd : abs (0 + |d0|) < 1 / 1000
  · refine ⟨s1, ?_, p1, m1, l1⟩
    rw [epLoop, sw1]
    dsimp only
    rw [if_pos hd]
  · refine ⟨s2, ?_, p2, m2, l2⟩
    rw [epLoop, sw1]
    dsimp only
    rw [if_neg hd, epLoop, sw2]
    dsimp only
    rw [if_pos (by norm_num)]

/-- The exponents of the message and of its normalization cancel. -/
theorem two_cancel {lP e v m beta p mp : ℝ} (hv : 0 < v) (hmsg : ltMessage e m v = (beta, p, mp)) (hb0 : beta ≠ 0)
    (hp0 : 0 < p) (hmp0 : mp ≠ 0) :
    1 / 2 * (mp ^ 2 * v - p / (1 + p * v) * (m + mp * v) ^ 2 - Real.log (1 + p * v)) + mp * m
        + twoLogS lP e beta p v - 1 / 2 * (if mp ≠ 0 then mp * mp / p else 0) = lP := by
  have hsv : 0 < √v := Real.sqrt_pos.2 hv
  set a := e / √v with ha
  have hb : beta = a * (a * v + m) := (congrArg Prod.fst hmsg).symm
  have hpe : p = beta / (1 - beta) / v := by rw [hb]; exact (congrArg (fun x => x.2.1) hmsg).symm
  have hmpe : mp = beta / (1 - beta) * (a + m / v) + a := by
    rw [hb]; exact (congrArg (fun x => x.2.2) hmsg).symm
  have h1b : 1 - beta ≠ 0 := by
    intro h0
    rw [hpe, h0, div_zero, zero_div] at hp0
    exact lt_irrefl _ hp0
  have hpv : 1 + p * v = 1 / (1 - beta) := by
    rw [hpe]; field_simp; ring
  have hlog : Real.log beta - Real.log p - Real.log v = Real.log (1 - beta) := by
    have : p * v = beta / (1 - beta) := by rw [hpe]; field_simp
    rw [sub_sub, ← Real.log_mul hp0.ne' hv.ne', this, Real.log_div hb0 h1b]
    ring
  have hlog2 : Real.log (1 + p * v) = -Real.log (1 - beta) := by rw [hpv, Real.log_div one_ne_zero h1b]; simp
  rw [if_pos hmp0, twoLogS, hlog, hlog2, ← ha]
  have hr : p / (1 + p * v) = beta / v := by
    rw [hpv, hpe]
    field_simp
  rw [hr]
  have hx : mp * mp / p = (p * m + a * v * p / beta) * (m + a * v / beta) := by
    have : mp = p * (m + a * v / beta) := by
      rw [hmpe, hpe]
      field_simp
      ring
    rw [this]
    field_simp
  have hmp2 : mp = p * (m + a * v / beta) := by
    rw [hmpe, hpe]
    field_simp
    ring
  have hpr : p = beta / v * (1 + p * v) := by rw [← hr]; field_simp [hpv]
  rw [hx]
  have key : mp ^ 2 * v - beta / v * (m + mp * v) ^ 2 + 2 * mp * m - (p * m + a * v * p / beta) * (m + a * v / beta)
      = - (a * a * v / beta) := by
    rw [hmp2, hpe]
    field_simp
    ring
  have : a * a / (2 * beta) * v = 1 / 2 * (a * a * v / beta) := by field_simp
  rw [this]
  linarith

theorem ncdf_neg (z : ℝ) : ncdf (-z) = 1 - ncdf z := by
  have h1 : ∫ t in Iic (-z), npdf t = ∫ t in Ioi z, npdf t := by
    rw [← integral_comp_neg_Ioi]
    have : ∀ t, npdf (-t) = npdf t := fun t => by simp [npdf]
    simp only [this]
  have h2 := integral_add_compl (s := Iic z) measurableSet_Iic integrable_npdf
  rw [compl_Iic, integral_npdf] at h2
  rw [ncdf_eq_integral, ncdf_eq_integral, h1]
  linarith

/-- The deviation the code uses for the difference of two points. -/
noncomputable def diffDeviation (k l : Fin 2) (Sigma : RMat 2) : ℝ :=
  √(Sigma l l - 2 * Sigma k l + Sigma k k + 2 / 10 ^ 25)

theorem two_z (k : Fin 2) (Mu : RVec 2) (Sigma : RMat 2) :
    ltcM k (k.succAbove 0) Mu / √(ltcVc k (k.succAbove 0) Sigma + 1 / 10 ^ 25)
      = (Mu (k.succAbove 0) - Mu k) / diffDeviation k (k.succAbove 0) Sigma := by
  have : diffDeviation k (k.succAbove 0) Sigma = √2 * √(ltcVc k (k.succAbove 0) Sigma + 1 / 10 ^ 25) := by
    rw [← Real.sqrt_mul (by norm_num), diffDeviation, ltcVc]
    congr 1
    ring
  rw [this, ltcM, div_div]

theorem ltcVc_pos {k : Fin 2} {Sigma : RMat 2} (hS : Sigma.PosDef) : 0 < ltcVc k (k.succAbove 0) Sigma := by
  rw [← factorDir_quad k _ (isSymm_of_posDef hS)]
  have := hS.dotProduct_mulVec_pos (factorDir_ne_zero (Fin.succAbove_ne k 0).symm)
  simpa using this

/-- The message of the code for the factor of point `k` does not fall below the threshold of the code. -/
def MessageKept (k : Fin 2) (Mu : RVec 2) (Sigma : RMat 2) : Prop :=
  let z := (Mu (k.succAbove 0) - Mu k) / diffDeviation k (k.succAbove 0) Sigma
  let msg := ltMessage (npdf z / ncdf z) (ltcM k (k.succAbove 0) Mu) (ltcVc k (k.succAbove 0) Sigma)
  epEps ≤ msg.2.1 ∧ epEps ≤ msg.2.2

/-- **C86 (partial).** Two points with a joint normal belief: the unnormalized probability computed for point `k` is
exactly the probability that its value is at most the other one (the variance of the difference regularized by
`2e-25`, the standardized difference at most 6 in absolute value). Missing: messages below the threshold `eps` of
the code. -/
theorem C86_two_points_partial (k : Fin 2) (Mu : RVec 2) (Sigma : RMat 2) (hS : Sigma.PosDef)
    (h6 : |(Mu (k.succAbove 0) - Mu k) / diffDeviation k (k.succAbove 0) Sigma| ≤ 6)
    (hkeep : MessageKept k Mu Sigma) :
    rawLogP (n := 1) Mu Sigma k
      = Real.log (probNonneg (Mu (k.succAbove 0) - Mu k) (diffDeviation k (k.succAbove 0) Sigma)) := by
  have hv := ltcVc_pos (k := k) hS
  have hz := two_z k Mu Sigma
  have hdev : 0 < diffDeviation k (k.succAbove 0) Sigma := by
    refine Real.sqrt_pos.2 ?_
    have : 0 < Sigma (k.succAbove 0) (k.succAbove 0) - 2 * Sigma k (k.succAbove 0) + Sigma k k := by
      have := hv
      unfold ltcVc at this
      linarith
    have h3 : (0 : ℝ) < 2 / 10 ^ 25 := by positivity
    linarith
  set z := (Mu (k.succAbove 0) - Mu k) / diffDeviation k (k.succAbove 0) Sigma with hzd
  obtain ⟨hp, hmp⟩ := hkeep
  have heps : 0 < epEps := by unfold epEps; positivity
  set msg := ltMessage (npdf z / ncdf z) (ltcM k (k.succAbove 0) Mu) (ltcVc k (k.succAbove 0) Sigma) with hmsg
  obtain ⟨st, hrun, hP, hMP, hL⟩ := epLoop_two hS hz.symm (abs_le.1 h6).1 (abs_le.1 h6).2
    (beta := msg.1) (p := msg.2.1) (mp := msg.2.2) hmsg.symm
  rw [max_eq_right hp] at hP hL
  rw [max_eq_right hmp] at hMP
  have hp0 : 0 < msg.2.1 := heps.trans_le hp
  have hb0 : msg.1 ≠ 0 := by
    intro h0
    have : msg.2.1 = msg.1 / (1 - msg.1) / ltcVc k (k.succAbove 0) Sigma := rfl
    rw [h0, zero_div, zero_div] at this
    exact hp0.ne' this
  rw [probNonneg_eq _ _ hdev, ← hzd, rawLogP, minFaktor, hrun]
  dsimp only [Option.map_some]
  rw [epLogZ_two k st.P st.MP st.logS Mu Sigma (isSymm_of_posDef hS) (by rw [hP]; exact hp0.le) hv.le, hP, hMP, hL]
  exact two_cancel hv hmsg.symm hb0 hp0 (heps.trans_le hmp).ne'

/-- **C86 (partial).** The belief over two points is then the exact distribution of the location of the minimum. -/
theorem C86_two_points_belief_partial (Mu : RVec 2) (Sigma : RMat 2) (hS : Sigma.PosDef)
    (h6 : |(Mu 1 - Mu 0) / diffDeviation 0 1 Sigma| ≤ 6) (hkeep : ∀ k, MessageKept k Mu Sigma) (k : Fin 2) :
    Real.exp (jointMin (n := 1) Mu Sigma k)
      = probNonneg (Mu (k.succAbove 0) - Mu k) (diffDeviation k (k.succAbove 0) Sigma) := by
  have hsym : Sigma 1 0 = Sigma 0 1 := (isSymm_of_posDef hS).apply 0 1
  have hdd : diffDeviation 1 0 Sigma = diffDeviation 0 1 Sigma := by
    unfold diffDeviation
    rw [hsym]
    congr 1
    ring
  have e0 : (0 : Fin 2).succAbove 0 = 1 := rfl
  have e1 : (1 : Fin 2).succAbove 0 = 0 := rfl
  have hv := ltcVc_pos (k := 0) hS
  have hdev : 0 < diffDeviation 0 1 Sigma := by
    refine Real.sqrt_pos.2 ?_
    have : 0 < Sigma 1 1 - 2 * Sigma 0 1 + Sigma 0 0 := by
      have := hv
      rw [e0] at this
      unfold ltcVc at this
      linarith
    have h3 : (0 : ℝ) < 2 / 10 ^ 25 := by positivity
    linarith
  have q0 : rawLogP (n := 1) Mu Sigma 0 = Real.log (ncdf ((Mu 1 - Mu 0) / diffDeviation 0 1 Sigma)) := by
    rw [C86_two_points_partial 0 Mu Sigma hS h6 (hkeep 0), e0, probNonneg_eq _ _ hdev]
  have hneg : (Mu 0 - Mu 1) / diffDeviation 0 1 Sigma = -((Mu 1 - Mu 0) / diffDeviation 0 1 Sigma) := by ring
  have q1 : rawLogP (n := 1) Mu Sigma 1 = Real.log (1 - ncdf ((Mu 1 - Mu 0) / diffDeviation 0 1 Sigma)) := by
    rw [C86_two_points_partial 1 Mu Sigma hS (by rw [e1, hdd, hneg, abs_neg]; exact h6) (hkeep 1), e1, hdd,
      probNonneg_eq _ _ hdev, hneg, ncdf_neg]
  set F := ncdf ((Mu 1 - Mu 0) / diffDeviation 0 1 Sigma) with hF
  have hF0 : 0 < F := ncdf_pos _
  have hF1 : 0 < 1 - F := sub_pos.2 (ncdf_lt_one _)
  obtain ⟨hsum, _, hdiff⟩ := C71_belief_normalized (n := 1) Mu Sigma
  have h2 : Real.exp (jointMin (n := 1) Mu Sigma 0) + Real.exp (jointMin (n := 1) Mu Sigma 1) = 1 := by
    rw [← hsum]
    exact (Fin.sum_univ_two fun i => Real.exp (jointMin (n := 1) Mu Sigma i)).symm
  have h3 : Real.exp (jointMin (n := 1) Mu Sigma 0) * (1 - F) = F * Real.exp (jointMin (n := 1) Mu Sigma 1) := by
    have h4 := hdiff 0 1
    have h5 : jointMin (n := 1) Mu Sigma 0
        = jointMin (n := 1) Mu Sigma 1 + (Real.log F - Real.log (1 - F)) := by
      rw [← q0, ← q1]; linarith
    rw [h5, Real.exp_add, Real.exp_sub, Real.exp_log hF0, Real.exp_log hF1]
    field_simp
  have h4 : Real.exp (jointMin (n := 1) Mu Sigma 0) = F := by
    have : Real.exp (jointMin (n := 1) Mu Sigma 1) = 1 - Real.exp (jointMin (n := 1) Mu Sigma 0) := by linarith
    rw [this] at h3
    linarith
  fin_cases k
  · change Real.exp (jointMin (n := 1) Mu Sigma 0) = probNonneg (Mu 1 - Mu 0) (diffDeviation 0 1 Sigma)
    rw [h4, probNonneg_eq _ _ hdev]
  · change Real.exp (jointMin (n := 1) Mu Sigma 1) = probNonneg (Mu 0 - Mu 1) (diffDeviation 1 0 Sigma)
    rw [hdd, probNonneg_eq _ _ hdev, hneg, ncdf_neg]
    linarith

/-- **C86.** A standardized difference above 6 or below -6: probability 1, and the probability `exp(-500)` that stands
for 0. -/
theorem C86_two_points_far (k : Fin 2) (Mu : RVec 2) (Sigma : RMat 2) (hS : Sigma.PosDef) :
    (6 < (Mu (k.succAbove 0) - Mu k) / diffDeviation k (k.succAbove 0) Sigma → rawLogP (n := 1) Mu Sigma k = 0) ∧
    ((Mu (k.succAbove 0) - Mu k) / diffDeviation k (k.succAbove 0) Sigma < -6 →
      rawLogP (n := 1) Mu Sigma k = -500) := by
  have hv := ltcVc_pos (k := k) hS
  have hcav := cavity_two k 1 Mu Sigma hS (epInit (n := 1) Mu Sigma) .init
  obtain ⟨_, _, hs2⟩ := C85_step_partial (n := 1) k (epInit (n := 1) Mu Sigma) 0
  rw [hcav] at hs2
  simp only [two_z k Mu Sigma] at hs2
  have hl : List.finRange 1 = [0] := rfl
  constructor
  · intro h6
    have hl6 : logRelativeGauss ((Mu (k.succAbove 0) - Mu k) / diffDeviation k (k.succAbove 0) Sigma)
        = (0, 0, 1) := by
      unfold logRelativeGauss
      rw [if_neg (by linarith), if_pos h6]
    have h10 : ¬ ((1 : Int) = 0) := by decide
    have h11 : ¬ ((1 : Int) = -1) := by decide
    obtain ⟨st, hst, hP, hMP, hL⟩ : ∃ st, epStep (n := 1) k 1 (epInit Mu Sigma) 0 = some (st, 0) ∧ st.P 0 = 0 ∧
        st.MP 0 = 0 ∧ st.logS 0 = 0 := by
      simp only [epStep, ltFactor, hcav, two_z k Mu Sigma, hl6, if_neg h10, if_neg h11]
      have hd : max (-(epInit (n := 1) Mu Sigma).MP 0) (-(epInit (n := 1) Mu Sigma).P 0) = 0 := by simp [epInit]
      rw [hd]
      refine ⟨_, rfl, ?_, ?_, ?_⟩ <;> simp [epInit]
    have hrun : epRun (n := 1) Mu Sigma k 1 = some st := by
      have hsw : epSweep (n := 1) k 1 (List.finRange 1) (epInit Mu Sigma) 0 = some (st, 0) := by
        simp only [hl, epSweep, hst, abs_zero, add_zero]
      rw [epRun, if_neg one_ne_zero, epLoop, hsw]
      dsimp only
      rw [if_pos (by norm_num)]
    rw [rawLogP, minFaktor, hrun]
    dsimp only [Option.map_some]
    rw [epLogZ_two k st.P st.MP st.logS Mu Sigma (isSymm_of_posDef hS) (by rw [hP]) hv.le, hP, hMP, hL]
    simp
  · intro h6
    have hrun : epRun (n := 1) Mu Sigma k 1 = none := by
      have hsw : epSweep (n := 1) k 1 (List.finRange 1) (epInit Mu Sigma) 0 = none := by
        simp only [hl, epSweep, hs2 h6]
      rw [epRun, if_neg one_ne_zero, epLoop, hsw]
    rw [rawLogP, minFaktor, hrun]
    rfl

/-- For equal means the two unnormalized probabilities agree, whatever the messages. -/
theorem rawLogP_equal_means (Mu : RVec 2) (Sigma : RMat 2) (hS : Sigma.PosDef) (h : Mu 0 = Mu 1) :
    rawLogP (n := 1) Mu Sigma 0 = rawLogP (n := 1) Mu Sigma 1 := by
  have hsym : Sigma 1 0 = Sigma 0 1 := (isSymm_of_posDef hS).apply 0 1
  have hv : ltcVc 1 ((1 : Fin 2).succAbove 0) Sigma = ltcVc 0 ((0 : Fin 2).succAbove 0) Sigma := by
    change (Sigma 0 0 - 2 * Sigma 1 0 + Sigma 1 1) / 2 = (Sigma 1 1 - 2 * Sigma 0 1 + Sigma 0 0) / 2
    rw [hsym]
    ring
  have hm0 : ltcM 0 ((0 : Fin 2).succAbove 0) Mu = 0 := by
    change (Mu 1 - Mu 0) / √2 = 0
    rw [h, sub_self, zero_div]
  have hm1 : ltcM 1 ((1 : Fin 2).succAbove 0) Mu = 0 := by
    change (Mu 0 - Mu 1) / √2 = 0
    rw [h, sub_self, zero_div]
  have key : ∀ k : Fin 2, ltcM k (k.succAbove 0) Mu = 0 →
      ltcVc k (k.succAbove 0) Sigma = ltcVc 0 ((0 : Fin 2).succAbove 0) Sigma →
      ∃ st, epRun (n := 1) Mu Sigma k 1 = some st ∧
        st.P 0 = max epEps (ltMessage (npdf 0 / ncdf 0) 0 (ltcVc 0 ((0 : Fin 2).succAbove 0) Sigma)).2.1 ∧
        st.MP 0 = max epEps (ltMessage (npdf 0 / ncdf 0) 0 (ltcVc 0 ((0 : Fin 2).succAbove 0) Sigma)).2.2 ∧
        st.logS 0 = twoLogS (Real.log (ncdf 0)) (npdf 0 / ncdf 0)
          (ltMessage (npdf 0 / ncdf 0) 0 (ltcVc 0 ((0 : Fin 2).succAbove 0) Sigma)).1
          (max epEps (ltMessage (npdf 0 / ncdf 0) 0 (ltcVc 0 ((0 : Fin 2).succAbove 0) Sigma)).2.1)
          (ltcVc 0 ((0 : Fin 2).succAbove 0) Sigma) := by
    intro k hm hvk
    have := epLoop_two (k := k) (Mu := Mu) hS (z := 0) (by rw [hm, zero_div]) (by norm_num) (by norm_num)
      (beta := (ltMessage (npdf 0 / ncdf 0) 0 (ltcVc 0 ((0 : Fin 2).succAbove 0) Sigma)).1)
      (p := (ltMessage (npdf 0 / ncdf 0) 0 (ltcVc 0 ((0 : Fin 2).succAbove 0) Sigma)).2.1)
      (mp := (ltMessage (npdf 0 / ncdf 0) 0 (ltcVc 0 ((0 : Fin 2).succAbove 0) Sigma)).2.2) (by rw [hm, hvk])
    rw [hvk] at this
    exact this
  have heps : 0 < epEps := by unfold epEps; positivity
  have hP0 : ∀ p : ℝ, 0 ≤ max epEps p := fun p => heps.le.trans (le_max_left _ _)
  obtain ⟨s0, r0, P0, M0, L0⟩ := key 0 hm0 rfl
  obtain ⟨s1, r1, P1, M1, L1⟩ := key 1 hm1 hv
  have e0 : rawLogP (n := 1) Mu Sigma 0 = epLogZ 0 s0.P s0.MP s0.logS Mu Sigma := by
    rw [rawLogP, minFaktor, r0]; rfl
  have e1 : rawLogP (n := 1) Mu Sigma 1 = epLogZ 1 s1.P s1.MP s1.logS Mu Sigma := by
    rw [rawLogP, minFaktor, r1]; rfl
  rw [e0, e1, epLogZ_two 0 s0.P s0.MP s0.logS Mu Sigma (isSymm_of_posDef hS) (by rw [P0]; exact hP0 _)
    (ltcVc_pos hS).le, epLogZ_two 1 s1.P s1.MP s1.logS Mu Sigma (isSymm_of_posDef hS) (by rw [P1]; exact hP0 _)
    (ltcVc_pos hS).le, hm0, hm1, hv, P0, P1, M0, M1, L0, L1]

/-- Two independent standard normal values meet the conditions. -/
theorem messageKept_standard (k : Fin 2) : MessageKept k (fun _ => 0) 1 := by
  have hv : ltcVc k (k.succAbove 0) (1 : RMat 2) = 1 := by
    have h1 : (1 : RMat 2) k (k.succAbove 0) = 0 := Matrix.one_apply_ne (Fin.succAbove_ne k 0).symm
    rw [ltcVc, h1, Matrix.one_apply_eq, Matrix.one_apply_eq]
    norm_num
  have hm : ltcM k (k.succAbove 0) (fun _ => (0 : ℝ)) = 0 := by simp [ltcM]
  unfold MessageKept
  rw [hv, hm]
  simp only [sub_self, zero_div]
  obtain ⟨h0, h1, _, _, _⟩ := C85_moment_matching 0 1 one_pos
  simp only [zero_div, one_pow] at h0 h1
  set e := npdf 0 / ncdf 0 with he
  have he1 : (1 : ℝ) / 3 ≤ e := by
    have h2 : (1 : ℝ) / 3 ≤ npdf 0 := by
      have : npdf 0 = 1 / √(2 * Real.pi) := by simp [npdf]
      rw [this]
      have h3 : √(2 * Real.pi) ≤ 3 := by
        rw [Real.sqrt_le_left (by norm_num)]
        nlinarith [Real.pi_le_four]
      exact one_div_le_one_div_of_le (Real.sqrt_pos.2 (by positivity)) h3
    rw [he, le_div_iff₀ (ncdf_pos 0)]
    have := ncdf_le_one 0
    nlinarith
  have hb : (ltMessage e 0 1).1 = e * e := by simp [ltMessage]
  rw [hb] at h0 h1
  have heps : epEps ≤ 1 / 9 := by unfold epEps; norm_num
  have h4 : 0 < 1 - e * e := by linarith
  have hr : 1 / 9 ≤ e * e / (1 - e * e) := by
    rw [le_div_iff₀ h4]
    nlinarith
  have hp : (ltMessage e 0 1).2.1 = e * e / (1 - e * e) := by simp [ltMessage]
  have hmp : (ltMessage e 0 1).2.2 = e * e / (1 - e * e) * e + e := by simp [ltMessage]
  rw [hp, hmp]
  constructor
  · linarith
  · have : 0 ≤ e * e / (1 - e * e) * e := by positivity
    linarith

example : Real.exp (jointMin (n := 1) (fun _ => 0) 1 0) = 1 / 2 := by
  rw [C86_two_points_belief_partial (fun _ => 0) 1 PosDef.one (by simp) messageKept_standard 0, probNonneg_eq]
  · have := ncdf_neg 0
    rw [neg_zero] at this
    simp only [sub_self, zero_div]
    linarith
  · refine Real.sqrt_pos.2 ?_
    rw [Matrix.one_apply_ne (Fin.succAbove_ne (0 : Fin 2) 0).symm, Matrix.one_apply_eq, Matrix.one_apply_eq]
    norm_num

/-- The hypothesis of C72 and C82 is met by an actual run. -/
example : ∃ st, epRun (n := 1) (fun _ => 0) 1 0 1 = some st := by
  obtain ⟨st, h, _⟩ := epLoop_two (k := 0) (Mu := fun _ => 0) (Sigma := 1) PosDef.one
    (two_z 0 _ _).symm (by simp) (by simp) rfl
  exact ⟨st, h⟩

/-- C86 is false below the threshold: two independent values of mean 0 and variance 1e8. The unnormalized probability
is larger than one half. -/
theorem C86_threshold_counterexample :
    Real.log (1 / 2) < rawLogP (n := 1) (fun _ => 0) ((10 : ℝ) ^ 8 • (1 : RMat 2)) 0 := by
  have hS : ((10 : ℝ) ^ 8 • (1 : RMat 2)).PosDef := PosDef.one.smul (by positivity)
  have hv : ltcVc 0 ((0 : Fin 2).succAbove 0) ((10 : ℝ) ^ 8 • (1 : RMat 2)) = 10 ^ 8 := by
    have h1 : (1 : RMat 2) 0 ((0 : Fin 2).succAbove 0) = 0 := Matrix.one_apply_ne (Fin.succAbove_ne 0 0).symm
    rw [ltcVc, Matrix.smul_apply, Matrix.smul_apply, Matrix.smul_apply, h1, Matrix.one_apply_eq,
      Matrix.one_apply_eq]
    norm_num
  have hm : ltcM 0 ((0 : Fin 2).succAbove 0) (fun _ => (0 : ℝ)) = 0 := by simp [ltcM]
  have hz : (0 : ℝ) = ltcM 0 ((0 : Fin 2).succAbove 0) (fun _ => (0 : ℝ))
      / √(ltcVc 0 ((0 : Fin 2).succAbove 0) ((10 : ℝ) ^ 8 • (1 : RMat 2)) + 1 / 10 ^ 25) := by rw [hm, zero_div]
  obtain ⟨h0, h1, hpp, _, _⟩ := C85_moment_matching 0 (10 ^ 4) (by positivity)
  simp only [zero_div] at h0 h1 hpp
  rw [show ((10 : ℝ) ^ 4) ^ 2 = 10 ^ 8 by norm_num] at h0 h1 hpp
  set e := npdf 0 / ncdf 0 with he
  have he0 : 0 < e := div_pos (npdf_pos 0) (ncdf_pos 0)
  set msg := ltMessage e 0 (10 ^ 8) with hmsg
  obtain ⟨st, hrun, hP, hMP, hL⟩ := epLoop_two hS hz (by norm_num) (by norm_num)
    (beta := msg.1) (p := msg.2.1) (mp := msg.2.2) (by rw [hm, hv])
  have hsq : √((10 : ℝ) ^ 8) = 10 ^ 4 := by
    rw [show (10 : ℝ) ^ 8 = (10 ^ 4) ^ 2 by norm_num]
    exact Real.sqrt_sq (by positivity)
  have hb : msg.1 = e * e := by
    change e / √(10 ^ 8) * (e / √(10 ^ 8) * 10 ^ 8 + 0) = _
    rw [hsq]
    ring
  have hhalf : ncdf 0 = 1 / 2 := by
    have := ncdf_neg 0
    rw [neg_zero] at this
    linarith
  have hbu : e * e ≤ 2 / 3 := by
    have h2 : e = 2 / √(2 * Real.pi) := by
      have : npdf 0 = 1 / √(2 * Real.pi) := by simp [npdf]
      rw [he, this, hhalf]
      ring
    have h3 : √(2 * Real.pi) * √(2 * Real.pi) = 2 * Real.pi := Real.mul_self_sqrt (by positivity)
    rw [h2, div_mul_div_comm, h3, div_le_div_iff₀ (by positivity) (by norm_num)]
    nlinarith [Real.pi_gt_three]
  have h1b : 0 < 1 - msg.1 := by linarith
  have hpe : msg.2.1 = msg.1 / (1 - msg.1) / 10 ^ 8 := rfl
  have hr : msg.1 / (1 - msg.1) ≤ 2 := by
    rw [div_le_iff₀ h1b, hb]
    linarith
  have hplt : msg.2.1 < epEps := by
    rw [hpe]
    unfold epEps
    have : msg.1 / (1 - msg.1) / 10 ^ 8 ≤ 2 / 10 ^ 8 := div_le_div_of_nonneg_right hr (by positivity)
    refine this.trans_lt ?_
    norm_num
  have hmpe : msg.2.2 = msg.1 / (1 - msg.1) * (e / 10 ^ 4) + e / 10 ^ 4 := by
    change msg.1 / (1 - msg.1) * (e / √(10 ^ 8) + 0 / 10 ^ 8) + e / √(10 ^ 8) = _
    rw [hsq]
    ring
  have he3 : (1 : ℝ) / 3 ≤ e := by
    have h2 : (1 : ℝ) / 3 ≤ npdf 0 := by
      have : npdf 0 = 1 / √(2 * Real.pi) := by simp [npdf]
      rw [this]
      have h3 : √(2 * Real.pi) ≤ 3 := by
        rw [Real.sqrt_le_left (by norm_num)]
        nlinarith [Real.pi_le_four]
      exact one_div_le_one_div_of_le (Real.sqrt_pos.2 (by positivity)) h3
    rw [he, le_div_iff₀ (ncdf_pos 0)]
    have := ncdf_le_one 0
    nlinarith
  have hmpge : epEps ≤ msg.2.2 := by
    rw [hmpe]
    have h2 : 0 ≤ msg.1 / (1 - msg.1) * (e / 10 ^ 4) := by positivity
    have h3 : (1 : ℝ) / 3 / 10 ^ 4 ≤ e / 10 ^ 4 := div_le_div_of_nonneg_right he3 (by positivity)
    have h4 : epEps ≤ 1 / 3 / 10 ^ 4 := by unfold epEps; norm_num
    linarith
  rw [max_eq_left hplt.le] at hP hL
  rw [← he] at hL
  rw [max_eq_right hmpge] at hMP
  have heps : 0 < epEps := by unfold epEps; positivity
  rw [rawLogP, minFaktor, hrun]
  dsimp only [Option.map_some]
  rw [epLogZ_two 0 st.P st.MP st.logS _ _ (isSymm_of_posDef hS) (by rw [hP]; exact heps.le)
    (by rw [hv]; positivity), hP, hMP, hL, hv, hm]
  -- compare with the value for the message that was cut off
  have key := two_cancel (lP := Real.log (ncdf 0)) (e := e) (v := 10 ^ 8) (m := 0) (beta := msg.1) (p := msg.2.1)
    (mp := msg.2.2) (by positivity) hmsg.symm h0.ne' hpp (heps.trans_le hmpge).ne'
  rw [if_pos (heps.trans_le hmpge).ne'] at key ⊢
  rw [hhalf] at key ⊢
  simp only [twoLogS] at key ⊢
  have hmono : ∀ p : ℝ, 0 < p → 1 / 2 * (msg.2.2 ^ 2 * 10 ^ 8 - p / (1 + p * 10 ^ 8) * (0 + msg.2.2 * 10 ^ 8) ^ 2
      - Real.log (1 + p * 10 ^ 8)) + 1 / 2 * Real.log p - 1 / 2 * (msg.2.2 * msg.2.2 / p)
      = -(1 / 2) * Real.log (p⁻¹ + 10 ^ 8) - 1 / 2 * (msg.2.2 ^ 2 / (p * (1 + p * 10 ^ 8))) := by
    intro p hp
    have h2 : p⁻¹ + 10 ^ 8 = (1 + p * 10 ^ 8) / p := by field_simp
    have h3 : (1 + p * 10 ^ 8) ≠ 0 := by positivity
    rw [h2, Real.log_div h3 hp.ne']
    field_simp
    ring
  have e1 := hmono msg.2.1 hpp
  have e2 := hmono epEps heps
  have hlog : Real.log (epEps⁻¹ + 10 ^ 8) < Real.log (msg.2.1⁻¹ + 10 ^ 8) := by
    refine Real.log_lt_log (by positivity) ?_
    have := inv_strictAnti₀ hpp hplt
    linarith
  have hfrac : msg.2.2 ^ 2 / (epEps * (1 + epEps * 10 ^ 8)) ≤ msg.2.2 ^ 2 / (msg.2.1 * (1 + msg.2.1 * 10 ^ 8)) := by
    refine div_le_div_of_nonneg_left (sq_nonneg _) (by positivity) ?_
    nlinarith
  linarith

end GPyOpt.Props
