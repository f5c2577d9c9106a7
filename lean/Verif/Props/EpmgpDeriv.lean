import Verif.Props.Epmgp
import Verif.Spec.Acquisition
import Mathlib.LinearAlgebra.Matrix.Charpoly.Coeff
import Mathlib.Topology.Instances.Matrix
import Mathlib.Analysis.Calculus.Deriv.Polynomial

/-!
# Derivatives yielded by the expectation propagation (C82, C83, C84)
-/

namespace GPyOpt.Props

open Matrix Filter
open scoped Topology
open GPyOpt.Spec

/-! ## The matrices from which `logZ` is computed -/

theorem epC_eq {n : Nat} (k : Fin (n + 1)) (a : Fin (n + 1)) (i : Fin n) :
    epC k a i = factorDir k (k.succAbove i) a := by
  unfold epC factorDir
  by_cases h1 : a = k
  · subst h1
    simp [(Fin.succAbove_ne a i).symm]
  · by_cases h2 : a = k.succAbove i
    · simp [h2, Fin.succAbove_ne]
    · simp [h1, h2]

theorem epR_apply {n : Nat} (k : Fin (n + 1)) (P : RVec n) (a : Fin (n + 1)) (i : Fin n) :
    epR k P a i = √(P i) * factorDir k (k.succAbove i) a := by
  rw [← epC_eq]; rfl

theorem epR_mul_transpose {n : Nat} (k : Fin (n + 1)) {P : RVec n} (hP : ∀ i, 0 ≤ P i) :
    epR k P * (epR k P)ᵀ
      = ∑ i, P i • vecMulVec (factorDir k (k.succAbove i)) (factorDir k (k.succAbove i)) := by
  ext a b
  rw [mul_apply, Matrix.sum_apply]
  refine Finset.sum_congr rfl fun i _ => ?_
  rw [Matrix.smul_apply, vecMulVec_apply, transpose_apply, epR_apply, epR_apply, smul_eq_mul]
  have := Real.mul_self_sqrt (hP i)
  calc √(P i) * factorDir k (k.succAbove i) a * (√(P i) * factorDir k (k.succAbove i) b)
      = (√(P i) * √(P i)) * (factorDir k (k.succAbove i) a * factorDir k (k.succAbove i) b) := by ring
    _ = _ := by rw [this]

theorem epr_eq {n : Nat} (k : Fin (n + 1)) (MP : RVec n) :
    epr k MP = ∑ i, MP i • factorDir k (k.succAbove i) := by
  funext a
  rw [epr, Finset.sum_apply]
  exact Finset.sum_congr rfl fun i _ => by rw [epC_eq]; rfl

theorem isSymm_of_posDef {D : Nat} {V : RMat D} (h : V.PosDef) : V.IsSymm := by
  simpa [IsHermitian, IsSymm, conjTranspose_eq_transpose_of_trivial] using h.isHermitian

theorem epIRSR_posDef {n : Nat} (R : Matrix (Fin (n + 1)) (Fin n) ℝ) {Sigma : RMat (n + 1)}
    (hS : Sigma.PosDef) : (epIRSR R Sigma).PosDef := by
  refine PosDef.one.add_posSemidef ?_
  have := hS.posSemidef.conjTranspose_mul_mul_same R
  rwa [conjTranspose_eq_transpose_of_trivial] at this

theorem epIRSR_isSymm {n : Nat} (R : Matrix (Fin (n + 1)) (Fin n) ℝ) {Sigma : RMat (n + 1)}
    (hS : Sigma.IsSymm) : (epIRSR R Sigma).IsSymm := by
  unfold IsSymm epIRSR
  rw [transpose_add, transpose_one, transpose_mul, transpose_mul, transpose_transpose, hS.eq, Matrix.mul_assoc]

/-- The symmetrization of `A` changes nothing in exact arithmetic. -/
theorem epA_eq {n : Nat} (R : Matrix (Fin (n + 1)) (Fin n) ℝ) {Sigma : RMat (n + 1)} (hS : Sigma.IsSymm) :
    epA R Sigma = R * ((epIRSR R Sigma)⁻¹ * Rᵀ) := by
  have : (R * ((epIRSR R Sigma)⁻¹ * Rᵀ))ᵀ = R * ((epIRSR R Sigma)⁻¹ * Rᵀ) := by
    rw [transpose_mul, transpose_mul, transpose_transpose, transpose_nonsing_inv, (epIRSR_isSymm R hS).eq,
      Matrix.mul_assoc]
  simp only [epA]
  rw [this, ← two_smul ℝ, smul_smul]
  norm_num

theorem epA_isSymm {n : Nat} (R : Matrix (Fin (n + 1)) (Fin n) ℝ) (Sigma : RMat (n + 1)) :
    (epA R Sigma).IsSymm := by
  unfold IsSymm
  simp only [epA]
  rw [transpose_smul, transpose_add, transpose_transpose, add_comm (_ᵀ)]

theorem epA_mul {n : Nat} (R : Matrix (Fin (n + 1)) (Fin n) ℝ) {Sigma : RMat (n + 1)} (hS : Sigma.IsSymm)
    (hu : IsUnit (epIRSR R Sigma).det) : epA R Sigma * Sigma * (R * Rᵀ) = R * Rᵀ - epA R Sigma := by
  rw [epA_eq R hS]
  have h1 : Rᵀ * Sigma * R = epIRSR R Sigma - 1 := by simp [epIRSR]
  calc R * ((epIRSR R Sigma)⁻¹ * Rᵀ) * Sigma * (R * Rᵀ)
      = R * ((epIRSR R Sigma)⁻¹ * (Rᵀ * Sigma * R) * Rᵀ) := by simp only [Matrix.mul_assoc]
    _ = R * Rᵀ - R * ((epIRSR R Sigma)⁻¹ * Rᵀ) := by
      rw [h1, Matrix.mul_sub, nonsing_inv_mul _ hu, Matrix.mul_one, Matrix.sub_mul, Matrix.one_mul,
        Matrix.mul_sub]

/-- **C82.** The derivatives with respect to the means agree with the marginal of the propagation: the first is
the prior precision times the shift of the mean, and the second the change of covariance between prior
precisions. -/
theorem C82_marginal_consistency {n : Nat} (k : Fin (n + 1)) (gamma : ℝ) (Mu : RVec (n + 1))
    (Sigma : RMat (n + 1)) (hS : Sigma.PosDef) (st : EPState n) (h : epRun Mu Sigma k gamma = some st) :
    Sigma *ᵥ epDMu k st.P st.MP Mu Sigma = st.M - Mu ∧
      Sigma * epDMuDMu k st.P Sigma * Sigma = st.V - Sigma := by
  obtain ⟨hP, hV, hVW, hM⟩ := C72_final_messages k gamma Mu Sigma hS st h
  have hsym := isSymm_of_posDef hS
  set R := epR k st.P with hR
  have hu : IsUnit (epIRSR R Sigma).det := (isUnit_iff_isUnit_det _).1 (epIRSR_posDef R hS).isUnit
  have hSu : IsUnit Sigma.det := (isUnit_iff_isUnit_det _).1 hS.isUnit
  have hprec : messagePrecision k Sigma st.P = Sigma⁻¹ + R * Rᵀ := by
    rw [messagePrecision, hR, epR_mul_transpose k hP]
  set A := epA R Sigma with hA
  have hmul := epA_mul R hsym hu
  have hinv : (Sigma - Sigma * A * Sigma) * messagePrecision k Sigma st.P = 1 := by
    rw [hprec, sub_mul, mul_add, mul_add, mul_nonsing_inv _ hSu]
    have e1 : Sigma * A * Sigma * Sigma⁻¹ = Sigma * A := by
      rw [Matrix.mul_assoc, mul_nonsing_inv _ hSu, Matrix.mul_one]
    have e2 : Sigma * A * Sigma * (R * Rᵀ) = Sigma * (R * Rᵀ) - Sigma * A := by
      rw [← Matrix.mul_sub, ← hmul, Matrix.mul_assoc, Matrix.mul_assoc, Matrix.mul_assoc]
    rw [e1, e2]
    abel
  have hVeq : st.V = Sigma - Sigma * A * Sigma := by
    rw [← inv_eq_left_inv hVW, ← inv_eq_left_inv hinv]
  constructor
  · have hMeq : st.M = st.V *ᵥ messageShift k Mu Sigma st.MP := by
      rw [← hM, mulVec_mulVec, hVW, one_mulVec]
    rw [hMeq, hVeq, messageShift, ← epr_eq]
    simp only [epDMu, epb, ← hR, ← hA]
    simp only [mulVec_add, mulVec_sub, sub_mulVec, mulVec_mulVec, Matrix.mul_assoc, Matrix.sub_mul,
      mul_nonsing_inv _ hSu, Matrix.mul_one, one_mulVec]
    abel
  · rw [hVeq]
    simp only [epDMuDMu, ← hR, ← hA]
    rw [Matrix.mul_neg, Matrix.neg_mul]
    abel

/-- **C82.** With the messages held fixed, the first derivative with respect to the means that `min_faktor` yields
is the derivative of the log-probability it yields; the second derivative is the derivative of the first. -/
theorem C82_mean_derivatives {n : Nat} (k : Fin (n + 1)) (P MP logS : RVec n) (Mu : RVec (n + 1))
    (Sigma : RMat (n + 1)) :
    IsGradientAt (fun mu => epLogZ k P MP logS mu Sigma) Mu (fun v => ∑ j, epDMu k P MP Mu Sigma j * v j) ∧
    ∀ a, IsGradientAt (fun mu => epDMu k P MP mu Sigma a) Mu (fun v => ∑ j, epDMuDMu k P Sigma a j * v j) := by
  set A := epA (epR k P) Sigma with hA
  have hAs : A.IsSymm := epA_isSymm _ _
  set r := epr k MP with hr
  -- a general quadratic function
  have hcoord : ∀ a, HasFDerivAt (fun mu : RVec (n + 1) => mu a) (ContinuousLinearMap.proj (R := ℝ) a) Mu :=
    fun a => hasFDerivAt_apply a Mu
  have hb : ∀ a, HasFDerivAt (fun mu : RVec (n + 1) => epb mu Sigma r a)
      (ContinuousLinearMap.proj (R := ℝ) (φ := fun _ : Fin (n + 1) => ℝ) a) Mu :=
    fun a => (hcoord a).add_const _
  have hAb : ∀ a, HasFDerivAt (fun mu : RVec (n + 1) => (A *ᵥ epb mu Sigma r) a)
      (∑ j, A a j • ContinuousLinearMap.proj (R := ℝ) (φ := fun _ : Fin (n + 1) => ℝ) j) Mu :=
    fun a => HasFDerivAt.fun_sum (u := Finset.univ) (A := fun j mu => A a j * epb mu Sigma r j)
      fun j _ => (hb j).const_mul (A a j)
  constructor
  · have h1 : HasFDerivAt (fun mu : RVec (n + 1) => epb mu Sigma r ⬝ᵥ A *ᵥ epb mu Sigma r) _ Mu :=
      HasFDerivAt.fun_sum fun a _ => (hb a).mul (hAb a)
    have h2 : HasFDerivAt (fun mu : RVec (n + 1) => mu ⬝ᵥ r) _ Mu :=
      HasFDerivAt.fun_sum fun a _ => (hcoord a).mul_const (r a)
    have h3 := ((((h1.const_sub (r ⬝ᵥ Sigma *ᵥ r)).sub_const (Real.log (epIRSR (epR k P) Sigma).det)).const_mul
      (1 / 2 : ℝ)).add h2 |>.add_const (∑ i, logS i) |>.sub_const (1 / 2 * epMpm P MP))
    refine ⟨_, h3, fun v => ?_⟩
    simp only [_root_.add_apply, _root_.smul_apply, _root_.neg_apply, _root_.sum_apply, smul_eq_mul,
      ContinuousLinearMap.proj_apply]
    have e1 : ∑ x, (epb Mu Sigma r x * ∑ j, A x j * v j) = ∑ j, (A *ᵥ epb Mu Sigma r) j * v j := by
      simp only [Finset.mul_sum]
      rw [Finset.sum_comm]
      refine Finset.sum_congr rfl fun j _ => ?_
      rw [mulVec, dotProduct, Finset.sum_mul]
      refine Finset.sum_congr rfl fun x _ => ?_
      rw [hAs.apply x j]
      ring
    rw [Finset.sum_add_distrib, e1]
    simp only [epDMu, ← hA, ← hr, Pi.sub_apply, sub_mul, Finset.sum_sub_distrib]
    ring
  · intro a
    refine ⟨_, (hAb a).const_sub (r a), fun v => ?_⟩
    simp only [epDMuDMu, ← hA, _root_.neg_apply, _root_.sum_apply, _root_.smul_apply, smul_eq_mul,
      ContinuousLinearMap.proj_apply, Matrix.neg_apply, neg_mul, Finset.sum_neg_distrib]

/-! ## The derivative with respect to the covariance -/

theorem epIRSR_line {n : Nat} (R : Matrix (Fin (n + 1)) (Fin n) ℝ) (Sigma H : RMat (n + 1)) (t : ℝ) :
    epIRSR R (Sigma + t • H) = epIRSR R Sigma + t • (Rᵀ * H * R) := by
  simp only [epIRSR, Matrix.mul_add, Matrix.add_mul, Matrix.mul_smul, Matrix.smul_mul]
  abel

theorem epIRSR_line_continuous {n : Nat} (R : Matrix (Fin (n + 1)) (Fin n) ℝ) (Sigma H : RMat (n + 1)) :
    Continuous fun t : ℝ => epIRSR R (Sigma + t • H) := by
  simp only [epIRSR_line]
  fun_prop

theorem epIRSR_line_unit {n : Nat} (R : Matrix (Fin (n + 1)) (Fin n) ℝ) (Sigma H : RMat (n + 1))
    (hu : IsUnit (epIRSR R Sigma).det) : ∀ᶠ t : ℝ in 𝓝 0, IsUnit (epIRSR R (Sigma + t • H)).det := by
  have hc : Continuous fun t : ℝ => (epIRSR R (Sigma + t • H)).det :=
    (epIRSR_line_continuous R Sigma H).matrix_det
  have h0 : (epIRSR R (Sigma + (0 : ℝ) • H)).det ≠ 0 := by
    rw [zero_smul, add_zero]
    exact hu.ne_zero
  filter_upwards [hc.continuousAt.eventually_ne h0] with t ht
  exact isUnit_iff_ne_zero.2 ht

theorem epA_line_tendsto {n : Nat} (R : Matrix (Fin (n + 1)) (Fin n) ℝ) {Sigma H : RMat (n + 1)}
    (hS : Sigma.IsSymm) (hH : H.IsSymm) (hu : IsUnit (epIRSR R Sigma).det) :
    Tendsto (fun t : ℝ => epA R (Sigma + t • H)) (𝓝 0) (𝓝 (epA R Sigma)) := by
  have hc := epIRSR_line_continuous R Sigma H
  have hd : ContinuousAt (fun t : ℝ => ((epIRSR R (Sigma + t • H)).det)⁻¹) 0 := by
    refine hc.matrix_det.continuousAt.inv₀ ?_
    rw [zero_smul, add_zero]
    exact hu.ne_zero
  have h1 : ContinuousAt (fun t : ℝ => (epIRSR R (Sigma + t • H))⁻¹) 0 := by
    simp only [inv_def, Ring.inverse_eq_inv']
    exact hd.smul hc.matrix_adjugate.continuousAt
  have h2 : ContinuousAt (fun t : ℝ => epA R (Sigma + t • H)) 0 := by
    have e : (fun t : ℝ => epA R (Sigma + t • H)) = fun t : ℝ => R * ((epIRSR R (Sigma + t • H))⁻¹ * Rᵀ) := by
      funext t
      exact epA_eq R (hS.add (hH.smul t))
    rw [e]
    have hm : Continuous fun X : RMat n => R * (X * Rᵀ) := by fun_prop
    exact hm.continuousAt.comp h1
  have := h2.tendsto
  simpa using this

theorem epA_resolvent {n : Nat} (R : Matrix (Fin (n + 1)) (Fin n) ℝ) {Sigma H : RMat (n + 1)}
    (hS : Sigma.IsSymm) (hH : H.IsSymm) (hu : IsUnit (epIRSR R Sigma).det) {t : ℝ}
    (ht : IsUnit (epIRSR R (Sigma + t • H)).det) :
    epA R (Sigma + t • H) - epA R Sigma = -(t • (epA R (Sigma + t • H) * H * epA R Sigma)) := by
  rw [epA_eq R hS, epA_eq R (hS.add (hH.smul t))]
  set X := epIRSR R (Sigma + t • H) with hX
  set Y := epIRSR R Sigma with hY
  have hXY : X = Y + t • (Rᵀ * H * R) := epIRSR_line R Sigma H t
  have h1 : X⁻¹ - Y⁻¹ = -(t • (X⁻¹ * (Rᵀ * H * R) * Y⁻¹)) := by
    have h2 : X⁻¹ * (X - Y) * Y⁻¹ = Y⁻¹ - X⁻¹ := by
      rw [Matrix.mul_sub, nonsing_inv_mul _ ht, Matrix.sub_mul, Matrix.one_mul, Matrix.mul_assoc,
        mul_nonsing_inv _ hu, Matrix.mul_one]
    rw [← neg_sub Y⁻¹ X⁻¹, ← h2, hXY, add_sub_cancel_left, Matrix.mul_smul, Matrix.smul_mul]
  calc R * (X⁻¹ * Rᵀ) - R * (Y⁻¹ * Rᵀ) = R * ((X⁻¹ - Y⁻¹) * Rᵀ) := by rw [Matrix.sub_mul, Matrix.mul_sub]
    _ = _ := by
      rw [h1]
      simp only [Matrix.neg_mul, Matrix.mul_neg, Matrix.smul_mul, Matrix.mul_smul, Matrix.mul_assoc]

theorem epA_line_hasDerivAt {n : Nat} (R : Matrix (Fin (n + 1)) (Fin n) ℝ) {Sigma H : RMat (n + 1)}
    (hS : Sigma.IsSymm) (hH : H.IsSymm) (hu : IsUnit (epIRSR R Sigma).det) (a c : Fin (n + 1)) :
    HasDerivAt (fun t : ℝ => epA R (Sigma + t • H) a c) (-(epA R Sigma * H * epA R Sigma) a c) 0 := by
  rw [hasDerivAt_iff_tendsto_slope]
  have h1 := epA_line_tendsto R hS hH hu
  have hm : Continuous fun X : RMat (n + 1) => -(X * H * epA R Sigma) a c := by
    have : Continuous fun X : RMat (n + 1) => X * H * epA R Sigma := by fun_prop
    exact (this.matrix_elem a c).neg
  have h2 := (hm.tendsto _).comp h1
  refine (h2.mono_left nhdsWithin_le_nhds).congr' ?_
  filter_upwards [nhdsWithin_le_nhds (epIRSR_line_unit R Sigma H hu), self_mem_nhdsWithin] with t ht hne
  have h3 := congrFun (congrFun (epA_resolvent R hS hH hu ht) a) c
  simp only [Matrix.sub_apply, Matrix.neg_apply, Matrix.smul_apply, smul_eq_mul] at h3
  have hne' : t ≠ 0 := hne
  simp only [slope_def_field, Function.comp, zero_smul, add_zero, sub_zero, h3]
  field_simp

theorem logdet_line_hasDerivAt {n : Nat} (R : Matrix (Fin (n + 1)) (Fin n) ℝ) {Sigma H : RMat (n + 1)}
    (hS : Sigma.IsSymm) (hu : IsUnit (epIRSR R Sigma).det) :
    HasDerivAt (fun t : ℝ => Real.log (epIRSR R (Sigma + t • H)).det) (epA R Sigma * H).trace 0 := by
  set Y := epIRSR R Sigma with hY
  set N := Y⁻¹ * (Rᵀ * H * R) with hN
  have e : ∀ t : ℝ, (epIRSR R (Sigma + t • H)).det
      = Y.det * (Polynomial.eval t (det (1 + (Polynomial.X : Polynomial ℝ) • N.map Polynomial.C))) := by
    intro t
    have h1 : epIRSR R (Sigma + t • H) = Y * (1 + t • N) := by
      rw [epIRSR_line, Matrix.mul_add, Matrix.mul_one, Matrix.mul_smul, hN, ← Matrix.mul_assoc,
        mul_nonsing_inv _ hu, Matrix.one_mul]
    rw [h1, det_mul]
    congr 1
    rw [← Polynomial.coe_evalRingHom, RingHom.map_det]
    congr 1
    ext i j
    simp [Matrix.one_apply, apply_ite (Polynomial.eval t)]
    exact mul_comm _ _
  have h2 : HasDerivAt (fun t : ℝ => (epIRSR R (Sigma + t • H)).det) (Y.det * N.trace) 0 := by
    have := (Polynomial.hasDerivAt (det (1 + (Polynomial.X : Polynomial ℝ) • N.map Polynomial.C)) 0).const_mul Y.det
    rw [derivative_det_one_add_X_smul] at this
    exact this.congr_of_eventuallyEq (Eventually.of_forall e)
  have h0 : (epIRSR R (Sigma + (0 : ℝ) • H)).det ≠ 0 := by
    rw [zero_smul, add_zero]; exact hu.ne_zero
  refine (h2.log h0).congr_deriv ?_
  rw [zero_smul, add_zero, ← hY, mul_comm Y.det, mul_div_assoc, div_self hu.ne_zero, mul_one, hN, epA_eq R hS,
    ← hY]
  rw [show Y⁻¹ * (Rᵀ * H * R) = (Y⁻¹ * (Rᵀ * H)) * R by simp only [Matrix.mul_assoc], Matrix.trace_mul_comm]
  simp only [Matrix.mul_assoc]

/-- Sum over the entries on and below the diagonal. -/
def lowerSum {D : Nat} (F : Fin D → Fin D → ℝ) : ℝ := ∑ i, ∑ j, if j ≤ i then F i j else 0

theorem lowerSum_symm {D : Nat} (F : Fin D → Fin D → ℝ) :
    lowerSum (fun i j => F i j + F j i - if i = j then F i j else 0) = ∑ i, ∑ j, F i j := by
  have h1 : lowerSum (fun i j => F i j + F j i - if i = j then F i j else 0)
      = (∑ i, ∑ j, if j ≤ i then F i j else 0) + (∑ i, ∑ j, if j ≤ i then F j i else 0)
        - ∑ i, ∑ j, if i = j then F i j else 0 := by
    unfold lowerSum
    rw [← Finset.sum_add_distrib, ← Finset.sum_sub_distrib]
    refine Finset.sum_congr rfl fun i _ => ?_
    rw [← Finset.sum_add_distrib, ← Finset.sum_sub_distrib]
    refine Finset.sum_congr rfl fun j _ => ?_
    by_cases h : j ≤ i
    · simp [h]
    · have : i ≠ j := fun e => h e.ge
      simp [h, this]
  rw [h1, Finset.sum_comm (f := fun i j => if j ≤ i then F j i else 0), ← Finset.sum_add_distrib,
    ← Finset.sum_sub_distrib]
  refine Finset.sum_congr rfl fun i _ => ?_
  rw [← Finset.sum_add_distrib, ← Finset.sum_sub_distrib]
  refine Finset.sum_congr rfl fun j _ => ?_
  rcases lt_trichotomy i j with h | h | h
  · simp [h.le, not_le.2 h, h.ne]
  · subst h; simp
  · simp [h.le, not_le.2 h, h.ne']

/-- **C82.** With the messages held fixed, the derivative with respect to the covariance that `min_faktor` yields
gives the derivative of the log-probability in the direction of every symmetric change of the covariance, one
entry of the triangle counting once. -/
theorem C82_covariance_derivative {n : Nat} (k : Fin (n + 1)) (P MP logS : RVec n) (Mu : RVec (n + 1))
    (Sigma H : RMat (n + 1)) (hS : Sigma.PosDef) (hH : H.IsSymm) :
    HasDerivAt (fun t : ℝ => epLogZ k P MP logS Mu (Sigma + t • H))
      (lowerSum fun i j => epDSigma k P MP Mu Sigma i j * H i j) 0 := by
  have hsym := isSymm_of_posDef hS
  set R := epR k P with hR
  set r := epr k MP with hr
  have hu : IsUnit (epIRSR R Sigma).det := (isUnit_iff_isUnit_det _).1 (epIRSR_posDef R hS).isUnit
  set A := epA R Sigma with hA
  have hAs : A.IsSymm := epA_isSymm _ _
  set b := epb Mu Sigma r with hb
  have hbt : ∀ t : ℝ, ∀ a, epb Mu (Sigma + t • H) r a = b a + t * (H *ᵥ r) a := by
    intro t a
    simp only [epb, hb, add_mulVec, smul_mulVec, Pi.add_apply, Pi.smul_apply, smul_eq_mul]
    ring
  have hbd : ∀ a, HasDerivAt (fun t : ℝ => epb Mu (Sigma + t • H) r a) ((H *ᵥ r) a) 0 := by
    intro a
    simp only [hbt]
    have := ((hasDerivAt_id (0 : ℝ)).mul_const ((H *ᵥ r) a)).const_add (b a)
    simpa using this
  have hrS : HasDerivAt (fun t : ℝ => r ⬝ᵥ (Sigma + t • H) *ᵥ r) (r ⬝ᵥ H *ᵥ r) 0 := by
    have e : (fun t : ℝ => r ⬝ᵥ (Sigma + t • H) *ᵥ r) = fun t => r ⬝ᵥ Sigma *ᵥ r + t * (r ⬝ᵥ H *ᵥ r) := by
      funext t
      rw [add_mulVec, smul_mulVec, dotProduct_add, dotProduct_smul, smul_eq_mul]
    rw [e]
    have := ((hasDerivAt_id (0 : ℝ)).mul_const (r ⬝ᵥ H *ᵥ r)).const_add (r ⬝ᵥ Sigma *ᵥ r)
    simpa using this
  have hAb : ∀ a, HasDerivAt (fun t : ℝ => (epA R (Sigma + t • H) *ᵥ epb Mu (Sigma + t • H) r) a)
      (∑ c, (-(A * H * A) a c * b c + A a c * (H *ᵥ r) c)) 0 := by
    intro a
    have := HasDerivAt.fun_sum (u := Finset.univ)
      (A := fun c (t : ℝ) => epA R (Sigma + t • H) a c * epb Mu (Sigma + t • H) r c) (x := (0 : ℝ))
      fun c _ => (epA_line_hasDerivAt R hsym hH hu a c).mul (hbd c)
    refine this.congr_deriv ?_
    refine Finset.sum_congr rfl fun c _ => ?_
    simp only [zero_smul, add_zero, ← hA, ← hb]
  have hq : HasDerivAt (fun t : ℝ => epb Mu (Sigma + t • H) r ⬝ᵥ
        (epA R (Sigma + t • H) *ᵥ epb Mu (Sigma + t • H) r))
      (∑ a, ((H *ᵥ r) a * (A *ᵥ b) a + b a * ∑ c, (-(A * H * A) a c * b c + A a c * (H *ᵥ r) c))) 0 := by
    have := HasDerivAt.fun_sum (u := Finset.univ)
      (A := fun a (t : ℝ) => epb Mu (Sigma + t • H) r a
        * (epA R (Sigma + t • H) *ᵥ epb Mu (Sigma + t • H) r) a) (x := (0 : ℝ))
      fun a _ => (hbd a).mul (hAb a)
    refine this.congr_deriv ?_
    refine Finset.sum_congr rfl fun a _ => ?_
    simp only [zero_smul, add_zero, ← hA, ← hb]
  have hfin := (((hrS.sub hq).sub (logdet_line_hasDerivAt R hsym hu (H := H))).const_mul (1 / 2 : ℝ)
    |>.add_const (Mu ⬝ᵥ r) |>.add_const (∑ i, logS i) |>.sub_const (1 / 2 * epMpm P MP))
  refine hfin.congr_deriv ?_
  -- algebra
  have s1 : ∑ a, ((H *ᵥ r) a * (A *ᵥ b) a + b a * ∑ c, (-(A * H * A) a c * b c + A a c * (H *ᵥ r) c))
      = 2 * ((H *ᵥ r) ⬝ᵥ (A *ᵥ b)) - (A *ᵥ b) ⬝ᵥ (H *ᵥ (A *ᵥ b)) := by
    have t1 : ∀ a, ∑ c, (-(A * H * A) a c * b c + A a c * (H *ᵥ r) c)
        = -((A * H * A) *ᵥ b) a + (A *ᵥ (H *ᵥ r)) a := by
      intro a
      rw [Finset.sum_add_distrib]
      simp only [neg_mul, Finset.sum_neg_distrib]
      rfl
    have t2 : b ⬝ᵥ (A *ᵥ (H *ᵥ r)) = (H *ᵥ r) ⬝ᵥ (A *ᵥ b) := by
      rw [dotProduct_mulVec, ← mulVec_transpose, hAs.eq, dotProduct_comm]
    have t3 : b ⬝ᵥ ((A * H * A) *ᵥ b) = (A *ᵥ b) ⬝ᵥ (H *ᵥ (A *ᵥ b)) := by
      rw [Matrix.mul_assoc, ← mulVec_mulVec, ← mulVec_mulVec, dotProduct_mulVec, ← mulVec_transpose, hAs.eq]
    simp only [t1, mul_add, mul_neg, Finset.sum_add_distrib, Finset.sum_neg_distrib]
    change (H *ᵥ r) ⬝ᵥ (A *ᵥ b) + (-(b ⬝ᵥ ((A * H * A) *ᵥ b)) + b ⬝ᵥ (A *ᵥ (H *ᵥ r))) = _
    rw [t2, t3]
    ring
  set G : RMat (n + 1) := -A - (2 : ℝ) • vecMulVec r (A *ᵥ b) + vecMulVec r r + vecMulVec (b ᵥ* A) (A *ᵥ b) with hG
  have s2 : ∀ i j, epDSigma k P MP Mu Sigma i j * H i j
      = 1 / 2 * (G i j * H i j + G j i * H j i - if i = j then G i j * H i j else 0) := by
    intro i j
    have hHs : H j i = H i j := hH.apply i j
    have hD : epDSigma k P MP Mu Sigma = (1 / 2 : ℝ) • (G + Gᵀ - diagonal fun a => G a a) := rfl
    rw [hD]
    simp only [Matrix.smul_apply, Matrix.sub_apply, Matrix.add_apply, transpose_apply, diagonal_apply,
      smul_eq_mul, hHs]
    by_cases h : i = j
    · subst h; simp only [if_true]; ring
    · simp only [if_neg h]; ring
  have s3 : lowerSum (fun i j => epDSigma k P MP Mu Sigma i j * H i j) = 1 / 2 * ∑ i, ∑ j, G i j * H i j := by
    rw [← lowerSum_symm (fun i j => G i j * H i j)]
    simp only [lowerSum, Finset.mul_sum, s2, mul_ite, mul_zero]
  have hbA : b ᵥ* A = A *ᵥ b := by rw [← mulVec_transpose, hAs.eq]
  have s4 : ∀ u w : RVec (n + 1), ∑ i, ∑ j, u i * w j * H i j = u ⬝ᵥ H *ᵥ w := by
    intro u w
    simp only [dotProduct, mulVec, Finset.mul_sum]
    refine Finset.sum_congr rfl fun i _ => Finset.sum_congr rfl fun j _ => by ring
  have s5 : ∑ i, ∑ j, A i j * H i j = (A * H).trace := by
    simp only [trace, diag_apply, mul_apply]
    refine Finset.sum_congr rfl fun i _ => Finset.sum_congr rfl fun j _ => by rw [hH.apply i j]
  have s6 : ∑ i, ∑ j, G i j * H i j = -(A * H).trace - 2 * (r ⬝ᵥ H *ᵥ (A *ᵥ b)) + r ⬝ᵥ H *ᵥ r
      + (A *ᵥ b) ⬝ᵥ H *ᵥ (A *ᵥ b) := by
    rw [← s5, ← s4 r (A *ᵥ b), ← s4 r r, ← s4 (A *ᵥ b) (A *ᵥ b), Finset.mul_sum, ← Finset.sum_neg_distrib,
      ← Finset.sum_sub_distrib, ← Finset.sum_add_distrib, ← Finset.sum_add_distrib]
    refine Finset.sum_congr rfl fun i _ => ?_
    rw [Finset.mul_sum, ← Finset.sum_neg_distrib, ← Finset.sum_sub_distrib, ← Finset.sum_add_distrib,
      ← Finset.sum_add_distrib]
    refine Finset.sum_congr rfl fun j _ => ?_
    simp only [hG, hbA, Matrix.add_apply, Matrix.sub_apply, Matrix.neg_apply, Matrix.smul_apply, vecMulVec_apply,
      smul_eq_mul]
    ring
  have s7 : r ⬝ᵥ H *ᵥ (A *ᵥ b) = (H *ᵥ r) ⬝ᵥ (A *ᵥ b) := by
    rw [dotProduct_mulVec, ← mulVec_transpose, hH.eq]
  rw [s1, s3, s6, s7]
  ring

/-! ## C83: the derivatives after the normalization -/

/-- **C83.** If `d` are the derivatives of the unnormalized log-probabilities (in a direction, for each parameter
`j`), the derivatives after the adjustment are those of the normalized log-probabilities. Used for the means and
for the covariances. -/
theorem C83_first_derivatives {n : Nat} {ι : Type} (q : ι → ℝ → RVec (n + 1)) (d : Fin (n + 1) → ι → ℝ)
    (logP : RVec (n + 1)) (j : ι) (t : ℝ) (h0 : q j t = logP)
    (hq : ∀ k, HasDerivAt (fun x => q j x k) (d k j) t) (k : Fin (n + 1)) :
    HasDerivAt (fun x => normalizeLogP (q j x) k) (adjustFirst logP d k j) t := by
  have e : ∀ l : RVec (n + 1), normalizeLogP l k = l k - Real.log (∑ i, Real.exp (l i)) := by
    intro l
    simp only [normalizeLogP]
    set mx := Finset.univ.sup' Finset.univ_nonempty l
    have hpos : 0 < ∑ i, Real.exp (l i - mx) :=
      Finset.sum_pos (fun i _ => Real.exp_pos _) Finset.univ_nonempty
    have : ∑ i, Real.exp (l i) = Real.exp mx * ∑ i, Real.exp (l i - mx) := by
      rw [Finset.mul_sum]
      refine Finset.sum_congr rfl fun i _ => ?_
      rw [← Real.exp_add]
      congr 1
      ring
    rw [this, Real.log_mul (Real.exp_pos _).ne' hpos.ne', Real.log_exp]
  simp only [e]
  have hsum : HasDerivAt (fun x => ∑ i, Real.exp (q j x i)) (∑ i, Real.exp (logP i) * d i j) t := by
    have := HasDerivAt.fun_sum (u := Finset.univ) (x := t) fun i (_ : i ∈ Finset.univ) => (hq i).exp
    rw [h0] at this
    exact this
  have hpos : 0 < ∑ i, Real.exp (logP i) := Finset.sum_pos (fun i _ => Real.exp_pos _) Finset.univ_nonempty
  have h1 := (hq k).sub (hsum.log (by rw [h0]; exact hpos.ne'))
  refine h1.congr_deriv ?_
  rw [h0]
  rfl

/-- The second derivative of the normalized log-probabilities: the elementwise square in the code should be the
product of the two sums. -/
noncomputable def trueSecond {n : Nat} (logP : RVec (n + 1)) (d : Fin (n + 1) → Fin (n + 1) → ℝ)
    (d2 : Fin (n + 1) → Fin (n + 1) → Fin (n + 1) → ℝ) (k i j : Fin (n + 1)) : ℝ :=
  d2 k i j - (∑ k', (d2 k' i j + d k' i * d k' j) * Real.exp (logP k')) / epZ logP
    + epZm logP d i * epZm logP d j

/-- The derivative of the adjusted first derivative (parameter `i`) with respect to parameter `j`. -/
theorem trueSecond_hasDerivAt {n : Nat} (q : ℝ → RVec (n + 1)) (g : ℝ → Fin (n + 1) → ℝ)
    (d : Fin (n + 1) → Fin (n + 1) → ℝ) (d2 : Fin (n + 1) → Fin (n + 1) → Fin (n + 1) → ℝ)
    (logP : RVec (n + 1)) (i j : Fin (n + 1)) (t : ℝ) (h0 : q t = logP) (hg0 : ∀ k, g t k = d k i)
    (hq : ∀ k, HasDerivAt (fun x => q x k) (d k j) t) (hg : ∀ k, HasDerivAt (fun x => g x k) (d2 k i j) t)
    (k : Fin (n + 1)) :
    HasDerivAt (fun x => adjustFirst (q x) (fun k (_ : Unit) => g x k) k ()) (trueSecond logP d d2 k i j) t := by
  have hpos : 0 < epZ logP := Finset.sum_pos (fun i _ => Real.exp_pos _) Finset.univ_nonempty
  have hZ : HasDerivAt (fun x => epZ (q x)) (∑ k, Real.exp (logP k) * d k j) t := by
    have := HasDerivAt.fun_sum (u := Finset.univ) (x := t) fun k (_ : k ∈ Finset.univ) => (hq k).exp
    rw [h0] at this
    exact this
  have hN : HasDerivAt (fun x => ∑ k, Real.exp (q x k) * g x k)
      (∑ k, (Real.exp (logP k) * d k j * d k i + Real.exp (logP k) * d2 k i j)) t := by
    have := HasDerivAt.fun_sum (u := Finset.univ) (x := t) fun k (_ : k ∈ Finset.univ) => (hq k).exp.mul (hg k)
    simp only [hg0, h0] at this
    exact this
  have h1 := (hg k).sub (hN.div hZ (by rw [h0]; exact hpos.ne'))
  refine h1.congr_deriv ?_
  have e1 : ∑ k, (Real.exp (logP k) * d k j * d k i + Real.exp (logP k) * d2 k i j)
      = ∑ k', (d2 k' i j + d k' i * d k' j) * Real.exp (logP k') :=
    Finset.sum_congr rfl fun k _ => by ring
  simp only [h0, hg0, e1, trueSecond, epZm]
  generalize (∑ k', (d2 k' i j + d k' i * d k' j) * Real.exp (logP k')) = S
  have := hpos.ne'
  field_simp
  ring

/-- **C83 (partial).** With respect to the means the second derivatives after the adjustment are those of the
normalized log-probabilities exactly at the pairs `(i, j)` of parameters where the sums `Zm` agree or the second one
vanishes; in particular on the diagonal. Elsewhere the code is wrong. -/
theorem C83_second_derivatives_partial {n : Nat} (q : ℝ → RVec (n + 1)) (g : ℝ → Fin (n + 1) → ℝ)
    (d : Fin (n + 1) → Fin (n + 1) → ℝ) (d2 : Fin (n + 1) → Fin (n + 1) → Fin (n + 1) → ℝ)
    (logP : RVec (n + 1)) (i j : Fin (n + 1)) (t : ℝ) (h0 : q t = logP) (hg0 : ∀ k, g t k = d k i)
    (hq : ∀ k, HasDerivAt (fun x => q x k) (d k j) t) (hg : ∀ k, HasDerivAt (fun x => g x k) (d2 k i j) t)
    (k : Fin (n + 1)) :
    HasDerivAt (fun x => adjustFirst (q x) (fun k (_ : Unit) => g x k) k ()) (adjustSecond logP d d2 k i j) t
      ↔ epZm logP d i = epZm logP d j ∨ epZm logP d j = 0 := by
  have h1 := trueSecond_hasDerivAt q g d d2 logP i j t h0 hg0 hq hg k
  have e : adjustSecond logP d d2 k i j - trueSecond logP d d2 k i j
      = (epZm logP d j - epZm logP d i) * epZm logP d j := by
    simp only [adjustSecond, trueSecond]
    ring
  constructor
  · intro h2
    have h3 := h2.unique h1
    rw [h3, sub_self] at e
    rcases mul_eq_zero.1 e.symm with h | h
    · exact Or.inl (by linarith)
    · exact Or.inr h
  · intro h2
    have h3 : adjustSecond logP d d2 k i j = trueSecond logP d d2 k i j := by
      rw [← sub_eq_zero, e]
      rcases h2 with h | h
      · rw [h, sub_self, zero_mul]
      · rw [h, mul_zero]
    rw [h3]
    exact h1

/-- C83 is false: two points whose unnormalized log-probabilities are `2 mu_0` and `mu_1`. -/
theorem C83_second_derivatives_counterexample :
    ∃ (q : ℝ → RVec 2) (g : ℝ → Fin 2 → ℝ) (d : Fin 2 → Fin 2 → ℝ) (d2 : Fin 2 → Fin 2 → Fin 2 → ℝ),
      (∀ k, HasDerivAt (fun x => q x k) (d k 1) 0) ∧ (∀ k, HasDerivAt (fun x => g x k) (d2 k 0 1) 0) ∧
      (∀ k, g 0 k = d k 0) ∧
      ¬ HasDerivAt (fun x => adjustFirst (q x) (fun k (_ : Unit) => g x k) 0 ())
        (adjustSecond (q 0) d d2 0 0 1) 0 := by
  refine ⟨fun x => ![0, x], fun _ => ![2, 0], ![![2, 0], ![0, 1]], fun _ _ _ => 0, ?_, ?_, ?_, ?_⟩
  · intro k
    fin_cases k
    · exact hasDerivAt_const _ _
    · exact hasDerivAt_id _
  · intro k
    exact hasDerivAt_const _ _
  · intro k
    fin_cases k <;> rfl
  · rw [C83_second_derivatives_partial (fun x => ![0, x]) (fun _ => ![2, 0]) ![![2, 0], ![0, 1]] (fun _ _ _ => 0)
      _ 0 1 0 rfl]
    · have h2 : ∀ f : Fin (1 + 1) → ℝ, ∑ k, f k = f 0 + f 1 := fun f => Fin.sum_univ_two f
      simp only [epZm, epZ, h2]
      norm_num
    · intro k
      fin_cases k <;> rfl
    · intro k
      fin_cases k
      · exact hasDerivAt_const _ _
      · exact hasDerivAt_id _
    · intro k
      exact hasDerivAt_const _ _

/-! ## C84: the packing of the covariance derivative -/

/-- **C84.** Reversing the upper triangle of the matrix rotated by 180 degrees lists the lower triangle in row-major
order, the order in which the entropy search reads its variance innovation. -/
theorem C84_packing {α : Type} {D : Nat} (G : Fin D → Fin D → α) : packSigma G = lowerTriangle G := by
  unfold packSigma lowerTriangle triuIndices
  rw [List.map_flatMap, List.reverse_flatMap, List.finRange_reverse, List.flatMap_map]
  congr 1
  funext i
  simp only [Function.comp_apply, List.map_map]
  rw [← List.map_reverse, ← List.filter_reverse, List.finRange_reverse, List.filter_map, List.map_map]
  congr 1
  · funext j
    simp [rot180]
  · congr 1
    funext j
    simp [Fin.rev_le_rev]

theorem lowerTriangle_eq_map {α : Type} {D : Nat} (K : Fin D → Fin D → α) :
    lowerTriangle K = (lowerTriangle fun i j => (i, j)).map fun p => K p.1 p.2 := by
  simp [lowerTriangle, List.map_flatMap, Function.comp_def]

theorem lowerTriangle_sum {D : Nat} (K : Fin D → Fin D → ℝ) : (lowerTriangle K).sum = lowerSum K := by
  unfold lowerTriangle lowerSum
  rw [List.flatMap, List.sum_flatten, List.map_map, Fin.sum_univ_def]
  congr 2
  funext i
  rw [Function.comp_apply, Fin.sum_univ_def]
  induction List.finRange D with
  | nil => simp
  | cons a l ih =>
    by_cases h : a ≤ i
    · simp [h, ih]
    · simp [h, ih]

/-- **C84.** The product of the packed covariance derivative and the packed innovation is the sum over the lower
triangle, every entry meeting its own counterpart. -/
theorem C84_packed_product {D : Nat} (G H : Fin D → Fin D → ℝ) :
    (List.zipWith (· * ·) (packSigma G) (lowerTriangle H)).sum = lowerSum fun i j => G i j * H i j := by
  rw [C84_packing, lowerTriangle_eq_map G, lowerTriangle_eq_map H, List.zipWith_map, List.zipWith_self,
    ← lowerTriangle_sum, lowerTriangle_eq_map fun i j => G i j * H i j]

example : packSigma (fun i j : Fin 3 => (i.val, j.val)) = [(0, 0), (1, 0), (1, 1), (2, 0), (2, 1), (2, 2)] := by
  decide

end GPyOpt.Props
