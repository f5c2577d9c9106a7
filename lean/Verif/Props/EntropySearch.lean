import Verif.Model.EntropySearch
import Verif.Props.EpmgpExact

/-!
# Properties of the entropy search acquisition (C87 to C92)
-/

namespace GPyOpt.Props

open Matrix
open GPyOpt.Spec

/-! ## C87: the value -/

theorem normalizeLogP_sum {n : Nat} (q : RVec (n + 1)) : ∑ i, Real.exp (normalizeLogP q i) = 1 := by
  simp only [normalizeLogP]
  set mx := Finset.univ.sup' Finset.univ_nonempty q
  have hpos : 0 < ∑ i, Real.exp (q i - mx) :=
    Finset.sum_pos (fun i _ => Real.exp_pos _) Finset.univ_nonempty
  have e : ∀ i, Real.exp (q i - (mx + Real.log (∑ i, Real.exp (q i - mx))))
      = Real.exp (q i - mx) / ∑ i, Real.exp (q i - mx) := by
    intro i
    rw [← sub_sub, Real.exp_sub, Real.exp_log hpos]
  simp only [e, ← Finset.sum_div]
  exact div_self hpos.ne'

/-- Negative entropy of a distribution given by its log-probabilities lies between `-log N` and 0. -/
theorem neg_entropy_bounds {n : Nat} (q : RVec (n + 1)) (h : ∑ i, Real.exp (q i) = 1) :
    -Real.log (n + 1) ≤ ∑ i, Real.exp (q i) * q i ∧ ∑ i, Real.exp (q i) * q i ≤ 0 := by
  constructor
  · have hN : (0 : ℝ) < n + 1 := by positivity
    have h1 : ∀ i, Real.exp (q i) * (-q i - Real.log (n + 1)) ≤ 1 / (n + 1) - Real.exp (q i) := by
      intro i
      have h2 := Real.add_one_le_exp (-q i - Real.log (n + 1))
      have h3 : Real.exp (q i) * Real.exp (-q i - Real.log (n + 1)) = 1 / (n + 1) := by
        rw [← Real.exp_add, show q i + (-q i - Real.log (n + 1)) = -Real.log (n + 1) by ring, Real.exp_neg,
          Real.exp_log hN, one_div]
      nlinarith [Real.exp_pos (q i)]
    have h4 := Finset.sum_le_sum fun i (_ : i ∈ Finset.univ) => h1 i
    rw [Finset.sum_sub_distrib, h] at h4
    have h5 : ∑ _i : Fin (n + 1), (1 : ℝ) / (n + 1) = 1 := by
      rw [Finset.sum_const, Finset.card_univ, Fintype.card_fin, nsmul_eq_mul]
      push_cast
      field_simp
    have h6 : ∑ i, Real.exp (q i) * (-q i - Real.log (n + 1))
        = -(∑ i, Real.exp (q i) * q i) - Real.log (n + 1) := by
      have : ∀ i, Real.exp (q i) * (-q i - Real.log (n + 1))
          = -(Real.exp (q i) * q i) - Real.exp (q i) * Real.log (n + 1) := fun i => by ring
      simp only [this]
      rw [Finset.sum_sub_distrib, Finset.sum_neg_distrib, ← Finset.sum_mul, h, one_mul]
    rw [h5, h6] at h4
    linarith
  · refine Finset.sum_nonpos fun i _ => ?_
    have h1 : Real.exp (q i) ≤ 1 := by
      rw [← h]
      exact Finset.single_le_sum (f := fun i => Real.exp (q i)) (fun j _ => (Real.exp_pos _).le)
        (Finset.mem_univ i)
    have h2 : q i ≤ 0 := by rwa [Real.exp_le_one_iff] at h1
    exact mul_nonpos_of_nonneg_of_nonpos (Real.exp_pos _).le h2

/-- **C87.** For every belief, location and set of innovations: every predicted belief is a probability
distribution `p`; the value is the mean over the innovations of `sum p (log p + log u)`, where `u` is the density
the representer points were drawn from; and it lies between the smallest `log u` minus the logarithm of the number
of points and the largest `log u`. -/
theorem C87_value (W : List ℝ) (hW : W ≠ []) (post : Posterior) (prm : ESParams) (x : List ℝ) (lo hi : ℝ)
    (hlo : ∀ k, lo ≤ prm.logs k) (hhi : ∀ k, prm.logs k ≤ hi) :
    ∃ p : ℝ → Fin (prm.n + 1) → ℝ,
      (∀ w, (∀ k, 0 < p w k) ∧ ∑ k, p w k = 1 ∧
        ∀ k l, Real.log (p w k) - Real.log (p w l) = esPredicted prm (innovMean post prm.points x) w k
          - esPredicted prm (innovMean post prm.points x) w l) ∧
      esAcq W post prm x
        = (W.map fun w => ∑ k, p w k * (Real.log (p w k) + prm.logs k)).sum / W.length ∧
      lo - Real.log (prm.n + 1) ≤ esAcq W post prm x ∧ esAcq W post prm x ≤ hi := by
  set dm := innovMean post prm.points x with hdm
  have hlen : (0 : ℝ) < W.length := by
    have := List.length_pos_iff.2 hW
    exact_mod_cast this
  have hval : ∀ w, lo - Real.log (prm.n + 1) ≤ esValue prm dm w ∧ esValue prm dm w ≤ hi := by
    intro w
    simp only [esValue]
    set q := normalizeLogP (esPredicted prm dm w)
    have hs : ∑ i, Real.exp (q i) = 1 := normalizeLogP_sum _
    obtain ⟨h1, h2⟩ := neg_entropy_bounds q hs
    have e : ∑ k, Real.exp (q k) * (q k + prm.logs k)
        = ∑ k, Real.exp (q k) * q k + ∑ k, Real.exp (q k) * prm.logs k := by
      rw [← Finset.sum_add_distrib]
      exact Finset.sum_congr rfl fun k _ => by ring
    have h3 : lo ≤ ∑ k, Real.exp (q k) * prm.logs k := by
      calc lo = ∑ k, Real.exp (q k) * lo := by rw [← Finset.sum_mul, hs, one_mul]
        _ ≤ _ := Finset.sum_le_sum fun k _ => mul_le_mul_of_nonneg_left (hlo k) (Real.exp_pos _).le
    have h4 : ∑ k, Real.exp (q k) * prm.logs k ≤ hi := by
      calc ∑ k, Real.exp (q k) * prm.logs k ≤ ∑ k, Real.exp (q k) * hi :=
            Finset.sum_le_sum fun k _ => mul_le_mul_of_nonneg_left (hhi k) (Real.exp_pos _).le
        _ = hi := by rw [← Finset.sum_mul, hs, one_mul]
    rw [e]
    constructor <;> linarith
  have hbound : ∀ l : List ℝ, (lo - Real.log (prm.n + 1)) * l.length ≤ (l.map (esValue prm dm)).sum ∧
      (l.map (esValue prm dm)).sum ≤ hi * l.length := by
    intro l
    induction l with
    | nil => simp
    | cons w l ih =>
      obtain ⟨h1, h2⟩ := hval w
      simp only [List.map_cons, List.sum_cons, List.length_cons, Nat.cast_add, Nat.cast_one]
      constructor <;> nlinarith [ih.1, ih.2]
  refine ⟨fun w k => Real.exp (normalizeLogP (esPredicted prm dm w) k), ?_, ?_, ?_, ?_⟩
  · intro w
    refine ⟨fun k => Real.exp_pos _, normalizeLogP_sum _, fun k l => ?_⟩
    rw [Real.log_exp, Real.log_exp]
    simp only [normalizeLogP]
    ring
  · simp only [Real.log_exp]
    rfl
  · rw [esAcq, le_div_iff₀ hlen]
    exact (hbound W).1
  · rw [esAcq, div_le_iff₀ hlen]
    exact (hbound W).2

/-! ## C88: the predicted change -/

theorem lowerTriangle_length (D : Nat) (G : Fin D → Fin D → ℝ) : (lowerTriangle G).length = D * (D + 1) / 2 := by
  unfold lowerTriangle
  rw [List.length_flatMap]
  have h1 : ∀ i : Fin D, (((List.finRange D).filter fun j => decide (j ≤ i)).map fun j => G i j).length
      = i.val + 1 := by
    intro i
    rw [List.length_map]
    have h2 : ((List.finRange D).filter fun j => decide (j ≤ i)).length = (Finset.Iic i).card := by
      rw [← List.toFinset_card_of_nodup ((List.nodup_finRange D).filter _)]
      congr 1
      ext j
      simp
    rw [h2, Fin.card_Iic]
  simp only [h1]
  have h3 : ((List.finRange D).map fun i : Fin D => i.val + 1).sum = ∑ i : Fin D, (i.val + 1) := by
    rw [Fin.sum_univ_def]
  rw [h3, Fin.sum_univ_eq_sum_range (fun i => i + 1) D]
  have h4 : ∀ d : Nat, (∑ i ∈ Finset.range d, (i + 1)) * 2 = d * (d + 1) := by
    intro d
    induction d with
    | zero => simp
    | succ d ih =>
      rw [Finset.sum_range_succ, add_mul, ih]
      ring
  have := h4 D
  omega

/-- The adjustment of the packed rows is the adjustment of every entry of the matrices. -/
theorem adjustPacked_eq {n : Nat} (logP : RVec (n + 1)) (G : Fin (n + 1) → Fin (n + 1) → Fin (n + 1) → ℝ)
    (k : Fin (n + 1)) :
    adjustPacked logP (fun k => packSigma (G k)) k
      = lowerTriangle fun i j => adjustFirst logP (fun k (p : Fin (n + 1) × Fin (n + 1)) => G k p.1 p.2) k (i, j) := by
  unfold adjustPacked
  set L := lowerTriangle (fun i j : Fin (n + 1) => (i, j)) with hL
  have hlen : (n + 1) * (n + 2) / 2 = L.length := by
    have h1 := lowerTriangle_length (n + 1) (fun _ _ => 0)
    rw [lowerTriangle_eq_map, List.length_map, ← hL] at h1
    exact h1.symm
  have hrow : ∀ k, packSigma (G k) = L.map fun p => G k p.1 p.2 := fun k => by
    rw [C84_packing, lowerTriangle_eq_map]
  have hzs : (List.range ((n + 1) * (n + 2) / 2)).map (fun p =>
      (∑ k', Real.exp (logP k') * (packSigma (G k')).getD p 0) / epZ logP)
      = L.map fun p => epZm logP (fun k (p : Fin (n + 1) × Fin (n + 1)) => G k p.1 p.2) p := by
    apply List.ext_getElem
    · rw [List.length_map, List.length_map, List.length_range, hlen]
    · intro m h1 h2
      rw [List.getElem_map, List.getElem_map, List.getElem_range]
      unfold epZm
      congr 1
      refine Finset.sum_congr rfl fun k' _ => ?_
      rw [List.length_map] at h2
      rw [hrow, List.getD_eq_getElem _ _ (by rw [List.length_map]; exact h2), List.getElem_map]
  dsimp only
  rw [hzs, hrow, List.zipWith_map, List.zipWith_self,
    lowerTriangle_eq_map fun i j => adjustFirst logP (fun k (p : Fin (n + 1) × Fin (n + 1)) => G k p.1 p.2) k (i, j)]
  rfl

/-- The log-probability of point `k` as a function of means and covariances, the messages of the propagation held
fixed. -/
noncomputable def frozenLogP {n : Nat} (mu0 : RVec (n + 1)) (S0 : RMat (n + 1)) (mu : RVec (n + 1))
    (S : RMat (n + 1)) : RVec (n + 1) := fun k =>
  match epRun mu0 S0 k 1 with
  | some st => epLogZ k st.P st.MP st.logS mu S
  | none => -500

theorem frozenLogP_self {n : Nat} (mu : RVec (n + 1)) (S : RMat (n + 1)) : frozenLogP mu S mu S = rawLogP mu S := by
  funext k
  unfold frozenLogP rawLogP minFaktor
  cases epRun mu S k 1 <;> rfl

theorem adjustFirst_linear {n : Nat} {ι : Type} [Fintype ι] (logP : RVec (n + 1)) (d : Fin (n + 1) → ι → ℝ)
    (v : ι → ℝ) (k : Fin (n + 1)) :
    ∑ i, adjustFirst logP d k i * v i = adjustFirst logP (fun k (_ : Unit) => ∑ i, d k i * v i) k () := by
  simp only [adjustFirst, epZm, sub_mul, Finset.sum_sub_distrib, Finset.mul_sum]
  congr 1
  rw [Finset.sum_comm, Finset.sum_div]
  refine Finset.sum_congr rfl fun i _ => ?_
  rw [div_mul_eq_mul_div, Finset.sum_mul]
  congr 1
  exact Finset.sum_congr rfl fun k' _ => by ring

theorem rawDSigma_eq {n : Nat} (mu : RVec (n + 1)) (S : RMat (n + 1)) (k : Fin (n + 1)) :
    rawDSigma mu S k = packSigma (match epRun mu S k 1 with
      | some st => fun i j => epDSigma k st.P st.MP mu S i j
      | none => fun _ _ => 0) := by
  unfold rawDSigma minFaktor
  cases h : epRun mu S k 1 with
  | some st => rfl
  | none =>
    have h1 := lowerTriangle_length (n + 1) (fun _ _ => 0)
    change List.replicate _ _ = packSigma fun _ _ => 0
    rw [C84_packing]
    refine (List.eq_replicate_iff.2 ⟨h1, ?_⟩).symm
    intro b hb
    rw [lowerTriangle_eq_map] at hb
    obtain ⟨p, _, rfl⟩ := List.mem_map.1 hb
    rfl

/-- The derivatives that occur in the predicted change. -/
theorem predicted_derivatives (post : Posterior) {n : Nat} (points : Fin (n + 1) → List ℝ)
    (logs : RVec (n + 1)) (hS : (post.predictCovariance true points).PosDef) (x : List ℝ) (k : Fin (n + 1)) :
    let mu : RVec (n + 1) := fun i => post.mean (points i)
    let S := post.predictCovariance true points
    let prm := esBelief post points logs
    let dm := innovMean post points x
    HasDerivAt (fun t : ℝ => normalizeLogP (frozenLogP mu S (mu + t • dm) S) k) (∑ i, prm.dMu k i * dm i) 0 ∧
    HasDerivAt (fun t : ℝ => normalizeLogP (frozenLogP mu S mu (S + t • innovVar dm)) k)
      ((List.zipWith (· * ·) (prm.dSigma k) (lowerTriangle fun i j => innovVar dm i j)).sum) 0 := by
  intro mu S prm dm
  have hsym : (innovVar dm).IsSymm := by
    ext i j
    simp [innovVar, mul_comm]
  constructor
  · change HasDerivAt _ (∑ i, adjustFirst (rawLogP mu S) (rawDMu mu S) k i * dm i) 0
    rw [adjustFirst_linear]
    refine C83_first_derivatives (fun (_ : Unit) t => frozenLogP mu S (mu + t • dm) S) _ _ () 0 ?_ ?_ k
    · rw [zero_smul, add_zero, frozenLogP_self]
    · intro k'
      unfold frozenLogP rawDMu minFaktor
      cases epRun mu S k' 1 with
      | none => simpa using hasDerivAt_const (0 : ℝ) (-500 : ℝ)
      | some st =>
        obtain ⟨L, hL, hLv⟩ := (C82_mean_derivatives k' st.P st.MP st.logS mu S).1
        have hpath : HasDerivAt (fun t : ℝ => mu + t • dm) dm 0 := by
          have := ((hasDerivAt_id (0 : ℝ)).smul_const dm).const_add mu
          simpa using this
        have h0 : mu = mu + (0 : ℝ) • dm := by rw [zero_smul, add_zero]
        rw [h0] at hL
        have h2 := hL.comp_hasDerivAt (0 : ℝ) hpath
        rw [hLv dm] at h2
        exact h2
  · set G : Fin (n + 1) → Fin (n + 1) → Fin (n + 1) → ℝ := fun k => match epRun mu S k 1 with
      | some st => fun i j => epDSigma k st.P st.MP mu S i j
      | none => fun _ _ => 0 with hG
    have hrows : prm.dSigma k = adjustPacked (rawLogP mu S) (fun k => packSigma (G k)) k := by
      change adjustPacked (rawLogP mu S) (rawDSigma mu S) k = _
      congr 1
      funext k'
      exact rawDSigma_eq mu S k'
    rw [hrows, adjustPacked_eq, ← C84_packing, C84_packed_product]
    have hlin : (lowerSum fun i j => adjustFirst (rawLogP mu S)
        (fun k (p : Fin (n + 1) × Fin (n + 1)) => G k p.1 p.2) k (i, j) * innovVar dm i j)
        = adjustFirst (rawLogP mu S) (fun k (_ : Unit) => lowerSum fun i j => G k i j * innovVar dm i j) k () := by
      have := adjustFirst_linear (rawLogP mu S) (fun k (p : Fin (n + 1) × Fin (n + 1)) => G k p.1 p.2)
        (fun p => if p.2 ≤ p.1 then innovVar dm p.1 p.2 else 0) k
      simp only [Fintype.sum_prod_type, mul_ite, mul_zero] at this
      exact this
    rw [hlin]
    refine C83_first_derivatives (fun (_ : Unit) t => frozenLogP mu S mu (S + t • innovVar dm)) _ _ () 0 ?_ ?_ k
    · rw [zero_smul, add_zero, frozenLogP_self]
    · intro k'
      unfold frozenLogP
      cases hr : epRun mu S k' 1 with
      | none =>
        have hg : G k' = fun _ _ => 0 := by rw [hG]; simp only [hr]
        have : (lowerSum fun i j => G k' i j * innovVar dm i j) = 0 := by rw [hg]; simp [lowerSum]
        rw [this]
        exact hasDerivAt_const (0 : ℝ) (-500 : ℝ)
      | some st =>
        have hg : G k' = fun i j => epDSigma k' st.P st.MP mu S i j := by rw [hG]; simp only [hr]
        rw [hg]
        exact C82_covariance_derivative k' st.P st.MP st.logS mu S (innovVar dm) hS hsym

/-- **C88 (partial).** The predicted change of the log-probabilities for an innovation `w`, for representer points
with positive definite predicted covariance: the current log-probability, plus `w` times the derivative of the
normalized log-probabilities when the means move in the direction of the innovation, plus their derivative when the
covariance moves in the direction of its innovation, plus half of the quadratic form of the second mean derivatives.
The messages of the propagation are held fixed. Missing: the quadratic form is the one of the second derivatives the
code computes, which are wrong, see `C83_second_derivatives_counterexample` and, for the prediction, `C88_second_order_partial`
and `C88_second_order_counterexample` in `EntropyExpansion.lean`. -/
theorem C88_predicted_change_partial (post : Posterior) {n : Nat} (points : Fin (n + 1) → List ℝ)
    (logs : RVec (n + 1)) (hS : (post.predictCovariance true points).PosDef) (x : List ℝ) (k : Fin (n + 1)) :
    let mu : RVec (n + 1) := fun i => post.mean (points i)
    let S := post.predictCovariance true points
    let prm := esBelief post points logs
    let dm := innovMean post points x
    ∃ a b q : ℝ,
      HasDerivAt (fun t : ℝ => normalizeLogP (frozenLogP mu S (mu + t • dm) S) k) a 0 ∧
      HasDerivAt (fun t : ℝ => normalizeLogP (frozenLogP mu S mu (S + t • innovVar dm)) k) b 0 ∧
      (∀ t : ℝ, ∑ i, ∑ j, prm.dMuDMu k i j * ((t * dm i) * (t * dm j)) = q * t ^ 2) ∧
      ∀ w : ℝ, esPredicted prm dm w k
        = normalizeLogP (frozenLogP mu S mu S) k + a * w + b + q / 2 := by
  intro mu S prm dm
  obtain ⟨h1, h2⟩ := predicted_derivatives post points logs hS x k
  refine ⟨_, _, ∑ i, ∑ j, prm.dMuDMu k i j * (dm i * dm j), h1, h2, ?_, ?_⟩
  · intro t
    rw [Finset.sum_mul]
    refine Finset.sum_congr rfl fun i _ => ?_
    rw [Finset.sum_mul]
    exact Finset.sum_congr rfl fun j _ => by ring
  · intro w
    have h0 : normalizeLogP (frozenLogP mu S mu S) k = prm.logP k := by
      rw [frozenLogP_self]; rfl
    rw [h0]
    have hr : ∀ l b q a : ℝ, l + (b + 1 / 2 * q) + a * w = l + a * w + b + q / 2 := fun l b q a => by ring
    exact hr _ _ _ _

/-! ## C89: the belief and the model -/

/-- Once computed, the stored belief is never replaced, whatever the later models, samples and evaluations are. -/
theorem esHistory_some (inputDim : Nat) (W : List ℝ)
    (calls : List (Posterior × List (List ℝ × LogVal) × Nat × List (List ℝ))) (prm : ESParams) :
    esHistory inputDim W calls (some prm) = some prm := by
  unfold esHistory
  induction calls with
  | nil => rfl
  | cons c l ih =>
    rw [List.foldl_cons]
    have : (esCompute inputDim W c.1 c.2.1 c.2.2.1 c.2.2.2 (some prm)).2 = some prm := by
      unfold esCompute
      split <;> rfl
    rw [this]
    exact ih

/-- **C89 (partial).** The first evaluation uses the belief of the current model. Missing: all later ones, see
`C89_stale_belief_counterexample`. -/
theorem C89_first_belief_partial (inputDim : Nat) (W : List ℝ) (post : Posterior)
    (samples : List (List ℝ × LogVal)) (X : List (List ℝ)) (prm : ESParams) (h : esUpdate post samples = .ok prm)
    (hX : X ≠ []) :
    esCompute inputDim W post samples inputDim X none = (.ok (X.map (esAcq W post prm)), some prm) := by
  unfold esCompute
  rw [if_neg (by simp), h]
  cases X with
  | nil => exact absurd rfl hX
  | cons a l => rfl

/-- Posteriors of two independent values with the given means. -/
noncomputable def twoPosterior (m : ℝ) : Posterior where
  mean := fun x => if x = [1] then m else 0
  cov := fun x y => if x = y then 1 else 0
  noise := 1 / 10 ^ 6

theorem twoPosterior_cov (m : ℝ) (points : Fin 2 → List ℝ) (h : points 0 ≠ points 1) :
    ((twoPosterior m).predictCovariance true points).PosDef ∧
      (twoPosterior m).predictCovariance true points 0 1 = 1 / 10 ^ 10 ∧
      (twoPosterior m).predictCovariance true points 0 0 = 1 + 1 / 10 ^ 6 ∧
      (twoPosterior m).predictCovariance true points 1 1 = 1 + 1 / 10 ^ 6 := by
  have h01 : (twoPosterior m).predictCovariance true points 0 1 = 1 / 10 ^ 10 := by
    simp [Posterior.predictCovariance, Posterior.fullCov, twoPosterior, h]
  have h10 : (twoPosterior m).predictCovariance true points 1 0 = 1 / 10 ^ 10 := by
    simp [Posterior.predictCovariance, Posterior.fullCov, twoPosterior, h.symm]
  have h00 : (twoPosterior m).predictCovariance true points 0 0 = 1 + 1 / 10 ^ 6 := by
    simp only [Posterior.predictCovariance, Posterior.fullCov, twoPosterior, of_apply]
    norm_num
  have h11 : (twoPosterior m).predictCovariance true points 1 1 = 1 + 1 / 10 ^ 6 := by
    simp only [Posterior.predictCovariance, Posterior.fullCov, twoPosterior, of_apply]
    norm_num
  refine ⟨?_, h01, h00, h11⟩
  refine PosDef.of_dotProduct_mulVec_pos ?_ ?_
  · ext i j
    fin_cases i <;> fin_cases j
    · simp [h00]
    · simp [h01, h10]
    · simp [h01, h10]
    · simp [h11]
  · intro a ha
    have hne : a 0 ≠ 0 ∨ a 1 ≠ 0 := by
      by_contra hc
      rw [not_or, not_not, not_not] at hc
      exact ha (funext fun i => by fin_cases i; exacts [hc.1, hc.2])
    simp only [dotProduct, mulVec, Fin.sum_univ_two, h00, h01, h10, h11, star_trivial]
    have : 0 < a 0 ^ 2 + a 1 ^ 2 := by
      rcases hne with h | h
      · have := sq_nonneg (a 1)
        have := pow_pos (abs_pos.2 h) 2
        rw [sq_abs] at this
        linarith
      · have := sq_nonneg (a 0)
        have := pow_pos (abs_pos.2 h) 2
        rw [sq_abs] at this
        linarith
    nlinarith [sq_nonneg (a 0 + a 1), sq_nonneg (a 0 - a 1)]

/-- The samples of the counterexample. -/
noncomputable def twoSamples : List (List ℝ × LogVal) := [([0], .fin 0), ([1], .fin 0)]

theorem twoUpdate (m : ℝ) : esUpdate (twoPosterior m) twoSamples
    = .ok (esBelief (twoPosterior m) (n := 1) (fun i => if i = 0 then [0] else [1]) fun _ => 0) := by
  have e : ∀ (f g : Fin 2 → List ℝ) (a b : RVec 2), f = g → a = b →
      esBelief (twoPosterior m) (n := 1) f a = esBelief (twoPosterior m) (n := 1) g b := by
    intro f g a b h1 h2
    rw [h1, h2]
  change Except.ok (esBelief (twoPosterior m) (n := 1) _ _) = _
  congr 1
  refine e _ _ _ _ ?_ ?_
  · funext i
    fin_cases i <;> rfl
  · funext i
    fin_cases i <;> rfl

/-- C89 is false: two representer points with equal means when the acquisition is first evaluated; then the model is
updated and the mean of the second point is 100. In every history of later evaluations, whatever the models, the
acquisition keeps the belief of the first model, in which the two points are equally likely the minimum, although
for the updated model their log-probabilities differ by 500. -/
theorem C89_stale_belief_counterexample :
    ∃ prm prm' : ESParams, esUpdate (twoPosterior 0) twoSamples = .ok prm ∧
      esUpdate (twoPosterior 100) twoSamples = .ok prm' ∧
      (∃ h : prm.n = 1, prm.logP (Fin.cast (by rw [h]) (0 : Fin 2)) = prm.logP (Fin.cast (by rw [h]) (1 : Fin 2))) ∧
      (∃ h : prm'.n = 1,
        prm'.logP (Fin.cast (by rw [h]) (0 : Fin 2)) - prm'.logP (Fin.cast (by rw [h]) (1 : Fin 2)) = 500) ∧
      ∀ (inputDim : Nat) (W : List ℝ) (X : List (List ℝ))
        (calls : List (Posterior × List (List ℝ × LogVal) × Nat × List (List ℝ))),
        esHistory inputDim W ((twoPosterior 0, twoSamples, inputDim, X) :: calls) none = some prm := by
  refine ⟨_, _, twoUpdate 0, twoUpdate 100, ⟨rfl, ?_⟩, ⟨rfl, ?_⟩, ?_⟩
  · set points : Fin 2 → List ℝ := fun i => if i = 0 then [0] else [1] with hpts
    have hne : points 0 ≠ points 1 := by simp [hpts]
    have h := rawLogP_equal_means (fun i => (twoPosterior 0).mean (points i)) _ (twoPosterior_cov 0 points hne).1
      (by simp [twoPosterior])
    change normalizeLogP (rawLogP (n := 1) (fun i => (twoPosterior 0).mean (points i))
        ((twoPosterior 0).predictCovariance true points)) 0
      = normalizeLogP (rawLogP (n := 1) (fun i => (twoPosterior 0).mean (points i))
        ((twoPosterior 0).predictCovariance true points)) 1
    simp only [normalizeLogP]
    rw [h]
  · set points : Fin 2 → List ℝ := fun i => if i = 0 then [0] else [1] with hpts
    have hne : points 0 ≠ points 1 := by simp [hpts]
    obtain ⟨hS, h01, h00, h11⟩ := twoPosterior_cov 100 points hne
    set mu : RVec 2 := fun i => (twoPosterior 100).mean (points i) with hmu
    set S := (twoPosterior 100).predictCovariance true points with hSd
    have hm0 : mu 0 = 0 := by simp [hmu, hpts, twoPosterior]
    have hm1 : mu 1 = 100 := by simp [hmu, hpts, twoPosterior]
    have h10 : S 1 0 = 1 / 10 ^ 10 := by rw [(isSymm_of_posDef hS).apply 0 1, h01]
    have hd : ∀ d : ℝ, d = 1 + 1 / 10 ^ 6 - 2 * (1 / 10 ^ 10) + (1 + 1 / 10 ^ 6) + 2 / 10 ^ 25 →
        0 < √d ∧ √d < 10 := by
      intro d hd
      have hpos : 0 < d := by rw [hd]; norm_num
      refine ⟨Real.sqrt_pos.2 hpos, ?_⟩
      rw [Real.sqrt_lt' (by norm_num), hd]
      norm_num
    have r0 : rawLogP (n := 1) mu S 0 = 0 := by
      refine (C86_two_points_far 0 mu S hS).1 ?_
      change 6 < (mu 1 - mu 0) / √(S 1 1 - 2 * S 0 1 + S 0 0 + 2 / 10 ^ 25)
      rw [h01, h00, h11, hm0, hm1]
      obtain ⟨h1, h2⟩ := hd _ rfl
      rw [lt_div_iff₀ h1]
      linarith
    have r1 : rawLogP (n := 1) mu S 1 = -500 := by
      refine (C86_two_points_far 1 mu S hS).2 ?_
      change (mu 0 - mu 1) / √(S 0 0 - 2 * S 1 0 + S 1 1 + 2 / 10 ^ 25) < -6
      rw [h10, h00, h11, hm0, hm1]
      obtain ⟨h1, h2⟩ := hd _ rfl
      rw [div_lt_iff₀ h1]
      linarith
    change normalizeLogP (rawLogP (n := 1) mu S) 0 - normalizeLogP (rawLogP (n := 1) mu S) 1 = 500
    simp only [normalizeLogP]
    rw [r0, r1]
    ring
  · intro inputDim W X calls
    have h1 : esHistory inputDim W ((twoPosterior 0, twoSamples, inputDim, X) :: calls) none
        = esHistory inputDim W calls
          (esCompute inputDim W (twoPosterior 0) twoSamples inputDim X none).2 := rfl
    have h2 : (esCompute inputDim W (twoPosterior 0) twoSamples inputDim X none).2
        = some (esBelief (twoPosterior 0) (n := 1) (fun i => if i = 0 then [0] else [1]) fun _ => 0) := by
      unfold esCompute
      rw [if_neg (by simp), twoUpdate]
    rw [h1, h2]
    exact esHistory_some _ _ _ _

/-! ## C90: the innovations -/

/-- Variance of `sum a_i f(r_i) - c f(x)` under the posterior. -/
def contrastVar (post : Posterior) {D : Nat} (pts : Fin D → List ℝ) (x : List ℝ) (a : RVec D) (c : ℝ) : ℝ :=
  ∑ i, ∑ j, a i * a j * post.cov (pts i) (pts j) - 2 * c * ∑ i, a i * post.cov (pts i) x + c ^ 2 * post.cov x x

/-- Variance of `sum a_i f(r_i)` when the covariance is changed by the innovation. -/
noncomputable def updatedVar (post : Posterior) {D : Nat} (pts : Fin D → List ℝ) (x : List ℝ) (a : RVec D) : ℝ :=
  ∑ i, ∑ j, a i * a j * (post.cov (pts i) (pts j) + innovVar (innovMean post pts x) i j)

theorem updatedVar_eq (post : Posterior) {D : Nat} (pts : Fin D → List ℝ) (x : List ℝ) (a : RVec D) :
    updatedVar post pts x a = ∑ i, ∑ j, a i * a j * post.cov (pts i) (pts j)
      - (∑ i, a i * post.cov (pts i) x) ^ 2 / post.std false x ^ 2 := by
  unfold updatedVar innovVar innovMean
  simp only [of_apply, mul_add, Finset.sum_add_distrib]
  rw [sub_eq_add_neg]
  congr 1
  rw [sq, Finset.sum_mul_sum, Finset.sum_div, ← Finset.sum_neg_distrib]
  refine Finset.sum_congr rfl fun i _ => ?_
  rw [Finset.sum_div, ← Finset.sum_neg_distrib]
  refine Finset.sum_congr rfl fun j _ => ?_
  ring

theorem std_sq (post : Posterior) (x : List ℝ) : post.std false x ^ 2 = max (post.cov x x) (1 / 10 ^ 10) := by
  unfold Posterior.std clippedStd
  rw [Real.sq_sqrt (le_max_of_le_right (by positivity))]
  simp

/-- **C90.** Observing the function at `x` (variance at least the threshold `1e-10`): the innovation changes the
covariance of the representer points to the covariance after the observation. For every linear combination of the
values at the points, the variance with the innovation is the least variance of the error of predicting it from the
value at `x`; and the innovation of the mean at a point times the standardized observation is the change of the
prediction, with the best coefficient. -/
theorem C90_innovations (post : Posterior) {D : Nat} (pts : Fin D → List ℝ) (x : List ℝ)
    (hx : 1 / 10 ^ 10 ≤ post.cov x x) :
    (∀ a, IsLeast (Set.range (contrastVar post pts x a)) (updatedVar post pts x a)) ∧
    ∀ (i : Fin D) (y : ℝ), ∃ c, contrastVar post pts x (Pi.single i 1) c = updatedVar post pts x (Pi.single i 1) ∧
      innovMean post pts x i * ((y - post.mean x) / post.std false x) = c * (y - post.mean x) := by
  have hpos : 0 < post.cov x x := lt_of_lt_of_le (by positivity) hx
  have hstd : post.std false x ^ 2 = post.cov x x := by rw [std_sq, max_eq_left hx]
  have key : ∀ (a : RVec D) (c : ℝ), contrastVar post pts x a c = updatedVar post pts x a
      + post.cov x x * (c - (∑ i, a i * post.cov (pts i) x) / post.cov x x) ^ 2 := by
    intro a c
    rw [updatedVar_eq, hstd, contrastVar]
    field_simp
    ring
  refine ⟨fun a => ⟨⟨(∑ i, a i * post.cov (pts i) x) / post.cov x x, ?_⟩, ?_⟩, fun i y => ?_⟩
  · rw [key, sub_self]
    ring
  · rintro _ ⟨c, rfl⟩
    rw [key]
    have := mul_nonneg hpos.le (sq_nonneg (c - (∑ i, a i * post.cov (pts i) x) / post.cov x x))
    linarith
  · refine ⟨post.cov (pts i) x / post.cov x x, ?_, ?_⟩
    · rw [key]
      have : ∑ j, (Pi.single i 1 : RVec D) j * post.cov (pts j) x = post.cov (pts i) x := by
        rw [Finset.sum_eq_single i]
        · simp
        · intro j _ hj
          rw [Pi.single_eq_of_ne hj, zero_mul]
        · simp
      rw [this, sub_self]
      ring
    · unfold innovMean
      rw [div_mul_div_comm, ← sq, hstd]
      ring

/-- **C90.** At every location, also below the threshold, the changed covariance is that of a random vector: no
linear combination gets a negative variance. -/
theorem C90_positive (post : Posterior) {D : Nat} (pts : Fin D → List ℝ) (x : List ℝ)
    (hpsd : ∀ a c, 0 ≤ contrastVar post pts x a c) (a : RVec D) : 0 ≤ updatedVar post pts x a := by
  rw [updatedVar_eq, std_sq]
  set s := ∑ i, a i * post.cov (pts i) x with hs
  set q := ∑ i, ∑ j, a i * a j * post.cov (pts i) (pts j) with hq
  have h : ∀ c : ℝ, 0 ≤ q - 2 * c * s + c ^ 2 * post.cov x x := fun c => hpsd a c
  have hm : post.cov x x ≤ max (post.cov x x) (1 / 10 ^ 10) := le_max_left _ _
  set M := max (post.cov x x) (1 / 10 ^ 10) with hM
  have hMpos : 0 < M := lt_of_lt_of_le (by positivity) (le_max_right _ _)
  have h1 := h (s / M)
  have h2 : (s / M) ^ 2 * post.cov x x ≤ (s / M) ^ 2 * M := mul_le_mul_of_nonneg_left hm (sq_nonneg _)
  have h3 : (s / M) ^ 2 * M = s ^ 2 / M := by field_simp
  have h4 : 2 * (s / M) * s = 2 * (s ^ 2 / M) := by ring
  rw [h3] at h2
  rw [h4] at h1
  linarith

/-! ## C91: predicted covariances -/

/-- **C91 (partial).** `predict_covariance` returns the covariance of the posterior exactly if none of its entries is
below `1e-10`; its diagonal always agrees with the squared deviations of `predict`. -/
theorem C91_covariance_partial (post : Posterior) (noise : Bool) {D : Nat} (pts : Fin D → List ℝ) :
    (post.predictCovariance noise pts = post.fullCov noise pts ↔
      ∀ i j, 1 / 10 ^ 10 ≤ post.fullCov noise pts i j) ∧
    ∀ i, post.predictCovariance noise pts i i = post.std noise (pts i) ^ 2 := by
  constructor
  · constructor
    · intro h i j
      have := congrFun (congrFun h i) j
      simp only [Posterior.predictCovariance, of_apply] at this
      rw [← this]
      exact le_max_right _ _
    · intro h
      ext i j
      simp only [Posterior.predictCovariance, of_apply]
      exact max_eq_left (h i j)
  · intro i
    unfold Posterior.std clippedStd
    rw [Real.sq_sqrt (le_max_of_le_right (by positivity))]
    simp [Posterior.predictCovariance, Posterior.fullCov]

/-- Unit vectors at the angles 0, 46, 93 and 139 degrees. -/
noncomputable def fan (x : List ℝ) : Fin 2 → ℝ :=
  if x = [0] then ![1, 0]
  else if x = [1] then ![20 / 29, 21 / 29]
  else if x = [2] then ![-41 / 841, 840 / 841]
  else ![-18460 / 24389, 15939 / 24389]

/-- A posterior with these correlations. -/
noncomputable def fanPosterior : Posterior where
  mean := fun _ => 0
  cov := fun x y => ∑ i, fan x i * fan y i
  noise := 1 / 10 ^ 6

/-- C91 is false: for a posterior (variances 1, noise 1e-6, four points) the matrix `predict_covariance` returns is
not a covariance matrix: it assigns a negative variance to a linear combination. The negative covariances have been
replaced by `1e-10`. -/
theorem C91_covariance_counterexample :
    (∀ (D : Nat) (pts : Fin D → List ℝ) (a : RVec D),
      0 ≤ ∑ i, ∑ j, a i * a j * fanPosterior.fullCov true pts i j) ∧
    ∃ (pts : Fin 4 → List ℝ) (a : RVec 4),
      ∑ i, ∑ j, a i * a j * fanPosterior.predictCovariance true pts i j < 0 := by
  constructor
  · intro D pts a
    have e : ∑ i, ∑ j, a i * a j * fanPosterior.fullCov true pts i j
        = ∑ l, (∑ i, a i * fan (pts i) l) ^ 2 + ∑ i, a i ^ 2 * (1 / 10 ^ 6) := by
      simp only [Posterior.fullCov, of_apply, fanPosterior, mul_add, Finset.sum_add_distrib]
      congr 1
      · have h : ∀ l : Fin 2, (∑ i, a i * fan (pts i) l) ^ 2
            = ∑ i, ∑ j, a i * fan (pts i) l * (a j * fan (pts j) l) := by
          intro l
          rw [sq, Finset.sum_mul_sum]
        simp only [h]
        rw [eq_comm, Finset.sum_comm]
        refine Finset.sum_congr rfl fun i _ => ?_
        rw [Finset.sum_comm]
        refine Finset.sum_congr rfl fun j _ => ?_
        rw [Finset.mul_sum]
        refine Finset.sum_congr rfl fun l _ => ?_
        ring
      · refine Finset.sum_congr rfl fun i _ => ?_
        simp [sq]
    rw [e]
    positivity
  · refine ⟨![[0], [1], [2], [3]], ![1, -8 / 5, 8 / 5, -1], ?_⟩
    have f0 : fan [0] = ![1, 0] := by simp [fan]
    have f1 : fan [1] = ![20 / 29, 21 / 29] := by simp [fan]
    have f2 : fan [2] = ![-41 / 841, 840 / 841] := by norm_num [fan]
    have f3 : fan [3] = ![-18460 / 24389, 15939 / 24389] := by norm_num [fan]
    set pts : Fin 4 → List ℝ := ![[0], [1], [2], [3]] with hp
    have p0 : pts 0 = [0] := rfl
    have p1 : pts 1 = [1] := rfl
    have p2 : pts 2 = [2] := rfl
    have p3 : pts 3 = [3] := rfl
    have e : ∀ i j, fanPosterior.predictCovariance true pts i j
        = max (fan (pts i) 0 * fan (pts j) 0 + fan (pts i) 1 * fan (pts j) 1 + if i = j then 1 / 10 ^ 6 else 0)
          (1 / 10 ^ 10) := by
      intro i j
      simp [Posterior.predictCovariance, Posterior.fullCov, fanPosterior, Fin.sum_univ_two]
    have n01 : (0 : Fin 4) ≠ 1 := by decide
    have n02 : (0 : Fin 4) ≠ 2 := by decide
    have n03 : (0 : Fin 4) ≠ 3 := by decide
    have n12 : (1 : Fin 4) ≠ 2 := by decide
    have n13 : (1 : Fin 4) ≠ 3 := by decide
    have n23 : (2 : Fin 4) ≠ 3 := by decide
    have a2 : (![1, -8 / 5, 8 / 5, -1] : RVec 4) 2 = 8 / 5 := rfl
    have a3 : (![1, -8 / 5, 8 / 5, -1] : RVec 4) 3 = -1 := rfl
    simp only [Fin.sum_univ_four, e, p0, p1, p2, p3, f0, f1, f2, f3, a2, a3, cons_val_zero, cons_val_one,
      if_neg n01, if_neg n02, if_neg n03, if_neg n12, if_neg n13, if_neg n23, if_neg n01.symm, if_neg n02.symm,
      if_neg n03.symm, if_neg n12.symm, if_neg n13.symm, if_neg n23.symm, if_true]
    norm_num

/-! ## C92: evaluation -/

theorem mem_keepFinite (samples : List (List ℝ × LogVal)) (x : List ℝ) (r : ℝ) :
    (x, r) ∈ keepFinite samples ↔ (x, LogVal.fin r) ∈ samples := by
  induction samples with
  | nil => simp [keepFinite]
  | cons s l ih =>
    obtain ⟨y, v⟩ := s
    cases v <;> simp [keepFinite, ih]

/-- **C92.** The representer points of a stored belief are those sampled points, with their log-densities, whose
density is positive; invalid densities are refused and then nothing is stored. -/
theorem C92_representer_points (post : Posterior) (samples : List (List ℝ × LogVal)) :
    (∀ prm, esUpdate post samples = .ok prm →
      ∀ x r, (∃ i, prm.points i = x ∧ prm.logs i = r) ↔ (x, LogVal.fin r) ∈ samples) ∧
    ((∃ x, (x, LogVal.nan) ∈ samples ∨ (x, LogVal.posInf) ∈ samples) → ∃ e, esUpdate post samples = .error e) ∧
    ∀ e, esUpdate post samples = .error e → ∀ inputDim W X,
      esCompute inputDim W post samples inputDim X none = (.error e, none) := by
  refine ⟨fun prm h x r => ?_, ?_, fun e h inputDim W X => ?_⟩
  · unfold esUpdate at h
    split at h
    · cases h
    · rw [← mem_keepFinite]
      revert h
      cases keepFinite samples with
      | nil => intro h; cases h
      | cons s l =>
        intro h
        cases h
        constructor
        · rintro ⟨i, hx, hr⟩
          rw [show (x, r) = (s :: l).get i from Prod.ext hx.symm hr.symm]
          exact List.get_mem _ _
        · intro hm
          obtain ⟨i, hi⟩ := List.get_of_mem hm
          refine ⟨i, ?_, ?_⟩
          · change ((s :: l).get i).1 = x
            rw [hi]
          · change ((s :: l).get i).2 = r
            rw [hi]
  · rintro ⟨x, h⟩
    refine ⟨.exception, ?_⟩
    unfold esUpdate
    rw [if_pos]
    rw [List.any_eq_true]
    rcases h with h | h
    · exact ⟨_, h, rfl⟩
    · exact ⟨_, h, rfl⟩
  · unfold esCompute
    rw [if_neg (by simp), h]

/-- **C92.** Points of a belief whose samples were weighted with the default proposal lie in the box of the space:
`inside` and `dens` are membership in the box and the log-density inside. -/
theorem C92_inside (post : Posterior) (pts : List (List ℝ)) (inside : List ℝ → Prop) [DecidablePred inside]
    (dens : List ℝ → LogVal) (prm : ESParams)
    (h : esUpdate post (pts.map fun x => (x, if inside x then dens x else LogVal.negInf)) = .ok prm) :
    ∀ i, inside (prm.points i) := by
  intro i
  have := ((C92_representer_points post _).1 prm h (prm.points i) (prm.logs i)).1 ⟨i, rfl, rfl⟩
  rw [List.mem_map] at this
  obtain ⟨x, _, hx⟩ := this
  have h1 : x = prm.points i := congrArg Prod.fst hx
  have h2 := congrArg Prod.snd hx
  rw [← h1]
  by_contra hc
  simp [hc] at h2

/-- **C92.** Evaluation of several rows is evaluation of every row: same values, same stored belief. Rows of the
wrong length are refused and leave the belief unchanged; no rows are refused too. -/
theorem C92_rows (inputDim cols : Nat) (W : List ℝ) (post : Posterior) (samples : List (List ℝ × LogVal))
    (X : List (List ℝ)) (st : Option ESParams) :
    (cols ≠ inputDim → esCompute inputDim W post samples cols X st = (.error .valueError, st)) ∧
    (∀ prm, esCompute inputDim W post samples inputDim [] (some prm) = (.error .valueError, some prm)) ∧
    ∀ vals st', esCompute inputDim W post samples inputDim X st = (.ok vals, st') →
      vals.length = X.length ∧ ∀ (i : Nat) (hi : i < X.length) (hv : i < vals.length),
        esCompute inputDim W post samples inputDim [X[i]] st = (.ok [vals[i]], st') := by
  refine ⟨?_, fun prm => by simp [esCompute], ?_⟩
  · intro h
    unfold esCompute
    rw [if_pos h]
  · intro vals st' h
    have main : ∀ prm, (∀ Y : List (List ℝ), Y ≠ [] → esCompute inputDim W post samples inputDim Y st
        = (.ok (Y.map (esAcq W post prm)), some prm)) → X ≠ [] →
        vals.length = X.length ∧ ∀ (i : Nat) (hi : i < X.length) (hv : i < vals.length),
          esCompute inputDim W post samples inputDim [X[i]] st = (.ok [vals[i]], st') := by
      intro prm hall hX
      rw [hall X hX] at h
      cases h
      refine ⟨by simp, fun i hi hv => ?_⟩
      rw [hall _ (by simp)]
      simp
    have hX : X ≠ [] := by
      rintro rfl
      unfold esCompute at h
      rw [if_neg (by simp)] at h
      split at h <;> cases h
    have hall : ∀ prm Y, Y ≠ [] → esCompute inputDim W post samples inputDim Y (some prm)
        = (.ok (Y.map (esAcq W post prm)), some prm) := by
      intro prm Y hY
      unfold esCompute
      rw [if_neg (by simp)]
      cases Y with
      | nil => exact absurd rfl hY
      | cons a l => rfl
    cases st with
    | some prm => exact main prm (hall prm) hX
    | none =>
      cases hE : esUpdate post samples with
      | error e =>
        rw [(C92_representer_points post samples).2.2 e hE] at h
        cases h
      | ok prm => exact main prm (fun Y hY => C89_first_belief_partial _ _ _ _ _ _ hE hY) hX

/-- The belief of two sampled points, one of which is outside the box, contains only the other. -/
example (post : Posterior) : ∃ prm, esUpdate post [([0], .fin 0), ([5], .negInf)] = .ok prm ∧ prm.n = 0 :=
  ⟨_, rfl, rfl⟩

/-- The hypotheses of `C89_first_belief_partial`. -/
example : ∃ prm, esUpdate (twoPosterior 0) twoSamples = .ok prm := ⟨_, twoUpdate 0⟩

/-- The hypotheses of `C90_innovations` and `C90_positive`, at a point correlated with others. -/
example : 1 / 10 ^ 10 ≤ fanPosterior.cov [1] [1] ∧ fanPosterior.cov [0] [1] = 20 / 29 ∧
    ∀ {D : Nat} (pts : Fin D → List ℝ) (a : RVec D) (c : ℝ), 0 ≤ contrastVar fanPosterior pts [1] a c := by
  have f1 : fan [1] = ![20 / 29, 21 / 29] := by simp [fan]
  have f0 : fan [0] = ![1, 0] := by simp [fan]
  refine ⟨?_, ?_, fun {D} pts a c => ?_⟩
  · simp only [fanPosterior, Fin.sum_univ_two, f1, cons_val_zero, cons_val_one]
    norm_num
  · simp only [fanPosterior, Fin.sum_univ_two, f0, f1, cons_val_zero, cons_val_one]
    norm_num
  · have e : contrastVar fanPosterior pts [1] a c = ∑ l, (∑ i, a i * fan (pts i) l - c * fan [1] l) ^ 2 := by
      have h1 : ∑ i, ∑ j, a i * a j * fanPosterior.cov (pts i) (pts j)
          = (∑ i, a i * fan (pts i) 0) ^ 2 + (∑ i, a i * fan (pts i) 1) ^ 2 := by
        rw [sq, sq, Finset.sum_mul_sum, Finset.sum_mul_sum, ← Finset.sum_add_distrib]
        refine Finset.sum_congr rfl fun i _ => ?_
        rw [← Finset.sum_add_distrib]
        refine Finset.sum_congr rfl fun j _ => ?_
        simp only [fanPosterior, Fin.sum_univ_two]
        ring
      have h2 : ∑ i, a i * fanPosterior.cov (pts i) [1]
          = (∑ i, a i * fan (pts i) 0) * fan [1] 0 + (∑ i, a i * fan (pts i) 1) * fan [1] 1 := by
        rw [Finset.sum_mul, Finset.sum_mul, ← Finset.sum_add_distrib]
        refine Finset.sum_congr rfl fun i _ => ?_
        simp only [fanPosterior, Fin.sum_univ_two]
        ring
      have h3 : fanPosterior.cov [1] [1] = fan [1] 0 ^ 2 + fan [1] 1 ^ 2 := by
        simp only [fanPosterior, Fin.sum_univ_two]
        ring
      rw [contrastVar, h1, h2, h3, Fin.sum_univ_two]
      ring
    rw [e]
    positivity

end GPyOpt.Props
