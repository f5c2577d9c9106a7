import Verif.Model.Epmgp
import Verif.Lemmas.Gauss
import Mathlib.LinearAlgebra.Matrix.PosDef

/-!
# Expectation propagation for the location of the minimum (C71, C72)
-/

namespace GPyOpt.Props

open Matrix

/-! ## C71 -/

/-- **C71.** For every mean and covariance the log-probabilities computed by `joint_min` are those of a
distribution: their exponentials sum to one. The normalization keeps their differences. -/
theorem C71_belief_normalized {n : Nat} (Mu : RVec (n + 1)) (Sigma : RMat (n + 1)) :
    ∑ i, Real.exp (jointMin Mu Sigma i) = 1 ∧ (∀ i, jointMin Mu Sigma i ≤ 0) ∧
      ∀ i j, jointMin Mu Sigma i - jointMin Mu Sigma j = rawLogP Mu Sigma i - rawLogP Mu Sigma j := by
  have hsum : ∑ i, Real.exp (jointMin Mu Sigma i) = 1 := by
    simp only [jointMin, normalizeLogP]
    set q := rawLogP Mu Sigma
    set mx := Finset.univ.sup' Finset.univ_nonempty q
    have hpos : 0 < ∑ i, Real.exp (q i - mx) :=
      Finset.sum_pos (fun i _ => Real.exp_pos _) Finset.univ_nonempty
    have e : ∀ i, Real.exp (q i - (mx + Real.log (∑ i, Real.exp (q i - mx))))
        = Real.exp (q i - mx) / ∑ i, Real.exp (q i - mx) := by
      intro i
      rw [← sub_sub, Real.exp_sub, Real.exp_log hpos]
    simp only [e, ← Finset.sum_div]
    exact div_self hpos.ne'
  refine ⟨hsum, ?_, ?_⟩
  · intro i
    rw [← Real.exp_le_one_iff, ← hsum]
    exact Finset.single_le_sum (f := fun i => Real.exp (jointMin Mu Sigma i)) (fun j _ => (Real.exp_pos _).le)
      (Finset.mem_univ i)
  · intro i j
    simp only [jointMin, normalizeLogP]
    ring

/-! ## C72 -/

/-- The direction of the factor that compares point `l` with point `s`. -/
noncomputable def factorDir {D : Nat} (s l : Fin D) : RVec D :=
  fun a => ((if a = l then 1 else 0) - (if a = s then 1 else 0)) / √2

theorem sqrt_two_mul_self : √2 * √2 = (2 : ℝ) := Real.mul_self_sqrt (by norm_num)

theorem sqrt_two_ne : √2 ≠ (0 : ℝ) := by positivity

theorem mulVec_factorDir {D : Nat} (s l : Fin D) (V : RMat D) : V *ᵥ factorDir s l = ltVc s l V := by
  funext a
  simp only [mulVec, dotProduct, factorDir, ltVc, mul_div_assoc', mul_sub, mul_ite, mul_one, mul_zero,
    ← Finset.sum_div, Finset.sum_sub_distrib, Finset.sum_ite_eq', Finset.mem_univ, if_true]

theorem factorDir_dot {D : Nat} (s l : Fin D) (x : RVec D) : factorDir s l ⬝ᵥ x = (x l - x s) / √2 := by
  simp only [dotProduct, factorDir, div_mul_eq_mul_div, sub_mul, ite_mul, one_mul, zero_mul, ← Finset.sum_div,
    Finset.sum_sub_distrib, Finset.sum_ite_eq', Finset.mem_univ, if_true]

theorem factorDir_quad {D : Nat} (s l : Fin D) {V : RMat D} (hV : V.IsSymm) :
    factorDir s l ⬝ᵥ (V *ᵥ factorDir s l) = ltcVc s l V := by
  have e : V l s = V s l := hV.apply s l
  rw [mulVec_factorDir, factorDir_dot]
  simp only [ltVc, ltcVc, e]
  rw [div_sub_div_same, div_div, sqrt_two_mul_self]
  ring

theorem factorDir_ne_zero {D : Nat} {s l : Fin D} (h : s ≠ l) : factorDir s l ≠ 0 := by
  intro e
  have := congrFun e l
  simp only [factorDir, if_true, if_neg h.symm, sub_zero, Pi.zero_apply, div_eq_zero_iff, one_ne_zero,
    false_or] at this
  exact sqrt_two_ne this

/-- One change of a message: rank-one update of covariance and mean against the precision. -/
theorem rank_one_update {D : Nat} (s l : Fin D) {V W : RMat D} (M : RVec D) (dp dmp : ℝ) (hV : V.IsSymm)
    (hVW : V * W = 1) (h0 : 1 + dp * ltcVc s l V ≠ 0) :
    (ltVnew s l V dp).IsSymm ∧
    ltVnew s l V dp * (W + dp • vecMulVec (factorDir s l) (factorDir s l)) = 1 ∧
    (W + dp • vecMulVec (factorDir s l) (factorDir s l)) *ᵥ ltMnew s l M V dp dmp
      = W *ᵥ M + dmp • factorDir s l := by
  have hWV : W * V = 1 := mul_eq_one_comm.1 hVW
  have hvm : ltVc s l V ᵥ* W = factorDir s l := by
    rw [← mulVec_factorDir, ← hV.eq, mulVec_transpose, vecMul_vecMul, hVW, vecMul_one]
  have hdot : ltVc s l V ⬝ᵥ factorDir s l = ltcVc s l V := by
    rw [dotProduct_comm, ← mulVec_factorDir, factorDir_quad s l hV]
  have hVc : V * vecMulVec (factorDir s l) (factorDir s l) = vecMulVec (ltVc s l V) (factorDir s l) := by
    rw [mul_vecMulVec, mulVec_factorDir]
  refine ⟨?_, ?_, ?_⟩
  · unfold ltVnew
    refine hV.sub (IsSymm.smul ?_ _)
    ext a b
    simp [vecMulVec_apply, mul_comm]
  · unfold ltVnew
    rw [sub_mul, mul_add, hVW, Matrix.mul_smul, hVc, Matrix.smul_mul, mul_add, vecMulVec_mul, hvm,
      Matrix.mul_smul, vecMulVec_mul_vecMulVec, hdot]
    rw [vecMulVec_smul]
    generalize vecMulVec (ltVc s l V) (factorDir s l) = X
    have hk : dp - dp / (1 + dp * ltcVc s l V) * (1 + dp * ltcVc s l V) = 0 := by field_simp; ring
    calc 1 + dp • X - (dp / (1 + dp * ltcVc s l V)) • (X + dp • (ltcVc s l V • X))
        = 1 + (dp - dp / (1 + dp * ltcVc s l V) * (1 + dp * ltcVc s l V)) • X := by module
      _ = 1 := by rw [hk, zero_smul, add_zero]
  · unfold ltMnew
    rw [mulVec_add, add_mulVec, add_mulVec, mulVec_smul, mulVec_smul, ← mulVec_factorDir, mulVec_mulVec, hWV,
      one_mulVec, smul_mulVec, smul_mulVec, vecMulVec_mulVec, vecMulVec_mulVec, factorDir_quad s l hV]
    have : factorDir s l ⬝ᵥ M = ltcM s l M := by rw [factorDir_dot]; rfl
    rw [this]
    ext a
    simp only [Pi.add_apply, Pi.smul_apply, smul_eq_mul, MulOpposite.smul_eq_mul_unop, MulOpposite.unop_op]
    field_simp
    ring

/-- States the loops of `min_faktor` pass through. -/
inductive EPReachable {n : Nat} (k : Fin (n + 1)) (gamma : ℝ) (Mu : RVec (n + 1)) (Sigma : RMat (n + 1)) :
    EPState n → Prop
  | init : EPReachable k gamma Mu Sigma (epInit Mu Sigma)
  | step {st st' i d} : EPReachable k gamma Mu Sigma st → epStep k gamma st i = some (st', d) →
      EPReachable k gamma Mu Sigma st'

theorem epSweep_reachable {n : Nat} {k : Fin (n + 1)} {gamma : ℝ} {Mu : RVec (n + 1)} {Sigma : RMat (n + 1)}
    (is : List (Fin n)) : ∀ {st : EPState n} {diff : ℝ} {st' diff'}, EPReachable k gamma Mu Sigma st →
    epSweep k gamma is st diff = some (st', diff') → EPReachable k gamma Mu Sigma st' := by
  induction is with
  | nil => intro st diff st' diff' h e; simp only [epSweep, Option.some_inj, Prod.mk.injEq] at e; exact e.1 ▸ h
  | cons i is ih =>
    intro st diff st' diff' h e
    simp only [epSweep] at e
    split at e
    · cases e
    · rename_i st1 d1 h1
      exact ih (.step h h1) e

theorem epLoop_reachable {n : Nat} {k : Fin (n + 1)} {gamma : ℝ} {Mu : RVec (n + 1)} {Sigma : RMat (n + 1)}
    (fuel : Nat) : ∀ {st st' : EPState n}, EPReachable k gamma Mu Sigma st →
    epLoop k gamma fuel st = some st' → EPReachable k gamma Mu Sigma st' := by
  induction fuel with
  | zero => intro st st' h e; simp only [epLoop, Option.some_inj] at e; exact e ▸ h
  | succ f ih =>
    intro st st' h e
    simp only [epLoop] at e
    split at e
    · cases e
    · rename_i st1 diff h1
      have h2 := epSweep_reachable _ h h1
      split at e
      · cases e; exact h2
      · exact ih h2 e

theorem epRun_reachable {n : Nat} {k : Fin (n + 1)} {gamma : ℝ} {Mu : RVec (n + 1)} {Sigma : RMat (n + 1)}
    {st : EPState n} (h : epRun Mu Sigma k gamma = some st) : EPReachable k gamma Mu Sigma st := by
  unfold epRun at h
  split at h
  · cases h
  · exact epLoop_reachable 50 .init h

/-- Precision of the prior times the messages `P`. -/
noncomputable def messagePrecision {n : Nat} (k : Fin (n + 1)) (Sigma : RMat (n + 1)) (P : RVec n) :
    RMat (n + 1) :=
  Sigma⁻¹ + ∑ i, P i • vecMulVec (factorDir k (k.succAbove i)) (factorDir k (k.succAbove i))

/-- Precision times mean of the prior times the messages `MP`. -/
noncomputable def messageShift {n : Nat} (k : Fin (n + 1)) (Mu : RVec (n + 1)) (Sigma : RMat (n + 1))
    (MP : RVec n) : RVec (n + 1) :=
  Sigma⁻¹ *ᵥ Mu + ∑ i, MP i • factorDir k (k.succAbove i)

theorem sum_update_smul {n : Nat} {E : Type*} [AddCommGroup E] [Module ℝ E] (P : RVec n) (i : Fin n) (p : ℝ)
    (f : Fin n → E) : ∑ j, Function.update P i p j • f j = (∑ j, P j • f j) + (p - P i) • f i := by
  rw [← Finset.add_sum_erase _ _ (Finset.mem_univ i), ← Finset.add_sum_erase (a := i) _ (fun j => P j • f j)
    (Finset.mem_univ i)]
  have : ∑ j ∈ Finset.univ.erase i, Function.update P i p j • f j = ∑ j ∈ Finset.univ.erase i, P j • f j :=
    Finset.sum_congr rfl fun j hj => by rw [Function.update_of_ne (Finset.ne_of_mem_erase hj)]
  rw [this, Function.update_self, sub_smul]
  abel

theorem messagePrecision_posDef {n : Nat} (k : Fin (n + 1)) {Sigma : RMat (n + 1)} (hS : Sigma.PosDef)
    {P : RVec n} (hP : ∀ i, 0 ≤ P i) : (messagePrecision k Sigma P).PosDef := by
  refine hS.inv.add_posSemidef ?_
  refine posSemidef_sum _ fun i _ => PosSemidef.smul ?_ (hP i)
  have := posSemidef_vecMulVec_self_star (factorDir k (k.succAbove i))
  simpa using this

/-- The step in terms of the change of the message. -/
theorem epStep_cases {n : Nat} {k : Fin (n + 1)} {gamma : ℝ} {st st' : EPState n} {i : Fin n} {d : ℝ}
    (h : epStep k gamma st i = some (st', d)) :
    ∃ dp dmp : ℝ, st'.P = Function.update st.P i (st.P i + dp) ∧ st'.MP = Function.update st.MP i (st.MP i + dmp) ∧
      -(st.P i) ≤ dp ∧ st'.V = ltVnew k (k.succAbove i) st.V dp ∧ st'.M = ltMnew k (k.succAbove i) st.M st.V dp dmp := by
  simp only [epStep, ltFactor] at h
  split at h
  · cases h
  · rename_i o ho
    cases h
    split at ho
    · cases ho
      refine ⟨_, _, rfl, rfl, ?_, rfl, rfl⟩
      refine le_trans ?_ (le_max_left _ _)
      have : (0 : ℝ) < epEps := by unfold epEps; positivity
      linarith
    · split at ho
      · cases ho
      · cases ho
        exact ⟨-(st.P i), -(st.MP i), by simp, by simp, le_refl _, rfl, rfl⟩

/-- **C72.** For every mean, every positive definite covariance, every point `k` and damping `gamma`: in every
state that the loops of `min_faktor` pass through, in particular in the final one, the precision messages are
non-negative, the marginal covariance is symmetric positive definite, it is the inverse of the prior precision
plus the messages, and the marginal mean is the one of the product of the prior and the messages. -/
theorem C72_marginal {n : Nat} (k : Fin (n + 1)) (gamma : ℝ) (Mu : RVec (n + 1)) (Sigma : RMat (n + 1))
    (hS : Sigma.PosDef) (st : EPState n) (h : EPReachable k gamma Mu Sigma st) :
    (∀ i, 0 ≤ st.P i) ∧ st.V.PosDef ∧ st.V * messagePrecision k Sigma st.P = 1 ∧
      messagePrecision k Sigma st.P *ᵥ st.M = messageShift k Mu Sigma st.MP := by
  induction h with
  | init =>
    refine ⟨fun i => le_refl _, hS, ?_, ?_⟩
    · simp [epInit, messagePrecision, mul_nonsing_inv _ ((isUnit_iff_isUnit_det _).1 hS.isUnit)]
    · simp [epInit, messagePrecision, messageShift]
  | @step st st' i d _ hstep ih =>
    obtain ⟨hP, hV, hVW, hM⟩ := ih
    obtain ⟨dp, dmp, eP, eMP, hdp, eV, eM⟩ := epStep_cases hstep
    set c := factorDir k (k.succAbove i) with hc
    have hsym : st.V.IsSymm := by
      have := hV.isHermitian
      simpa [IsHermitian, IsSymm, conjTranspose_eq_transpose_of_trivial] using this
    have hcne : c ≠ 0 := factorDir_ne_zero (Fin.succAbove_ne k i).symm
    -- the cavity precision is positive definite
    have hcav : (messagePrecision k Sigma (Function.update st.P i 0)).PosDef := by
      refine messagePrecision_posDef k hS fun j => ?_
      by_cases hj : j = i
      · subst hj; simp
      · rw [Function.update_of_ne hj]; exact hP j
    have ecav : messagePrecision k Sigma (Function.update st.P i 0)
        = messagePrecision k Sigma st.P - st.P i • vecMulVec c c := by
      unfold messagePrecision
      rw [sum_update_smul, zero_sub, neg_smul, ← hc]
      abel
    have hWV : messagePrecision k Sigma st.P * st.V = 1 := mul_eq_one_comm.1 hVW
    have hq : 0 < ltcVc k (k.succAbove i) st.V := by
      rw [← factorDir_quad _ _ hsym]
      simpa using hV.dotProduct_mulVec_pos hcne
    have hlt : 0 < 1 - st.P i * ltcVc k (k.succAbove i) st.V := by
      have hVc : st.V *ᵥ c ≠ 0 := by
        intro e
        have : messagePrecision k Sigma st.P *ᵥ (st.V *ᵥ c) = c := by rw [mulVec_mulVec, hWV, one_mulVec]
        rw [e, mulVec_zero] at this
        exact hcne this.symm
      have h1 := hcav.dotProduct_mulVec_pos hVc
      rw [ecav, sub_mulVec, mulVec_mulVec, hWV, one_mulVec, smul_mulVec, vecMulVec_mulVec,
        factorDir_quad _ _ hsym] at h1
      have h2 : (st.V *ᵥ c) ⬝ᵥ c = ltcVc k (k.succAbove i) st.V := by
        rw [dotProduct_comm, factorDir_quad _ _ hsym]
      simp only [star_trivial, dotProduct_sub, dotProduct_smul, h2, smul_eq_mul, MulOpposite.smul_eq_mul_unop,
        MulOpposite.unop_op] at h1
      by_contra hc
      push Not at hc
      nlinarith
    have h0 : 0 < 1 + dp * ltcVc k (k.succAbove i) st.V := by nlinarith
    obtain ⟨r1, r2, r3⟩ := rank_one_update k (k.succAbove i) st.M dp dmp hsym hVW h0.ne'
    have eprec : messagePrecision k Sigma st'.P = messagePrecision k Sigma st.P + dp • vecMulVec c c := by
      unfold messagePrecision
      rw [eP, sum_update_smul, add_sub_cancel_left, ← hc]
      abel
    have hP' : ∀ j, 0 ≤ st'.P j := by
      intro j
      rw [eP]
      by_cases hj : j = i
      · subst hj; rw [Function.update_self]; linarith
      · rw [Function.update_of_ne hj]; exact hP j
    have hprod : st'.V * messagePrecision k Sigma st'.P = 1 := by rw [eprec, eV]; exact r2
    refine ⟨hP', ?_, hprod, ?_⟩
    · have := (messagePrecision_posDef k hS hP').inv
      rwa [← (inv_eq_left_inv hprod)] 
    · rw [eprec, eM, r3, hM, messageShift, messageShift, eMP, sum_update_smul, add_sub_cancel_left, ← hc]
      abel

/-- **C72.** In particular for the messages from which the probability and its derivatives are computed. -/
theorem C72_final_messages {n : Nat} (k : Fin (n + 1)) (gamma : ℝ) (Mu : RVec (n + 1)) (Sigma : RMat (n + 1))
    (hS : Sigma.PosDef) (st : EPState n) (h : epRun Mu Sigma k gamma = some st) :
    (∀ i, 0 ≤ st.P i) ∧ st.V.PosDef ∧ st.V * messagePrecision k Sigma st.P = 1 ∧
      messagePrecision k Sigma st.P *ᵥ st.M = messageShift k Mu Sigma st.MP :=
  C72_marginal k gamma Mu Sigma hS st (epRun_reachable h)

end GPyOpt.Props
