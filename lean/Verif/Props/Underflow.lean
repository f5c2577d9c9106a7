import Verif.Model.Underflow
import Verif.Props.RegretEI
import Verif.Props.FloatAcq
import Verif.Lemmas.Corr

/-!
# C173: acquisitions that are too small for a double

A double is at least `2^-1074`.  Expected improvement is smaller if the target is more than 39 deviations below the mean.  With the
default jitter `0.01` this is so at every location whose deviation is below `0.00025` and whose mean is not below the incumbent.
There the value and its gradient are zero, whatever the model says.
-/

namespace GPyOpt.Props

open GPyOpt Spec

/-! ## Arithmetic that underflows -/

/-- What is used of double precision: the rounding is monotone and keeps whole numbers, the exponential and the complementary
error function are zero where the true value is less than a sixtieth of the smallest number, and `np.sqrt(2)` is about right. -/
structure Underflow (M : FlMath) : Prop where
  mono : Monotone M.rd
  int : ∀ n : ℤ, |n| ≤ 2 ^ 53 → M.rd n = n
  exp : ∀ x, Real.exp x ≤ 1 / 2 ^ 1080 → M.exp x = 0
  erfc : ∀ x, GPyOpt.erfc x ≤ 1 / 2 ^ 1080 → M.erfc x = 0
  sqrt2 : 0 < M.sqrt2 ∧ M.sqrt2 ≤ 10 / 7

theorem Underflow.zero {M : FlMath} (h : Underflow M) : M.rd 0 = 0 := by simpa using h.int 0 (by norm_num)

theorem two_pow_exp (n : ℕ) : (2 : ℝ) ^ n = Real.exp (n * Real.log 2) := by
  rw [Real.exp_nat_mul, Real.exp_log (by norm_num)]

theorem inv_pow_split (n k : ℕ) : (1 : ℝ) / 2 ^ (n + k) = 1 / 2 ^ k * (1 / 2 ^ n) := by
  rw [pow_add, one_div_mul_one_div, mul_comm]

theorem exp_tiny {x : ℝ} (hx : x ≤ -756) : Real.exp x ≤ 1 / 2 ^ 1080 := by
  have h1 : (2 : ℝ) ^ 1080 ≤ Real.exp 756 := by
    rw [two_pow_exp 1080]
    refine Real.exp_le_exp.2 ?_
    have := Real.log_two_lt_d9
    push_cast
    linarith
  calc Real.exp x ≤ Real.exp (-756) := Real.exp_le_exp.2 hx
    _ = 1 / Real.exp 756 := by rw [Real.exp_neg, one_div]
    _ ≤ 1 / 2 ^ 1080 := by gcongr

theorem erfc_eq_ncdf (x : ℝ) : GPyOpt.erfc x = 2 * ncdf (-(√2 * x)) := by
  unfold ncdf
  rw [neg_neg, mul_div_cancel_left₀ x (by positivity)]
  ring

theorem erfc_le_exp {x : ℝ} (hx : 1 ≤ x) : GPyOpt.erfc x ≤ Real.exp (-x ^ 2) := by
  have h2 : (1 : ℝ) ≤ √2 := Real.one_le_sqrt.2 (by norm_num)
  have hs := std_improvement_pos (-(√2 * x))
  have ht : 1 ≤ √2 * x := by nlinarith
  have hp := npdf_pos (-(√2 * x))
  have hc := ncdf_pos (-(√2 * x))
  have h1 : ncdf (-(√2 * x)) ≤ npdf (-(√2 * x)) := by nlinarith
  have h3 : npdf (-(√2 * x)) ≤ Real.exp (-x ^ 2) / 2 := by
    unfold npdf
    have e : -(1 / 2) * (-(√2 * x)) ^ 2 = -x ^ 2 := by
      rw [neg_sq, mul_pow, Real.sq_sqrt (by norm_num)]; ring
    rw [e]
    have h4 : (2 : ℝ) ≤ √(2 * Real.pi) := by
      rw [Real.le_sqrt (by norm_num) (by positivity)]
      have := Real.two_le_pi
      linarith
    gcongr
  rw [erfc_eq_ncdf]
  linarith

/-- Forty deviations above the target, density and probability are zero. -/
theorem quantiles_zero {M : FlMath} (h : Underflow M) {u : ℝ} (hu : u ≤ -40) : flPhi M u = 0 ∧ flCdf M u = 0 := by
  constructor
  · unfold flPhi
    have h1 : (1600 : ℝ) ≤ M.rd (u ^ 2) := by
      have := h.mono (show ((1600 : ℤ) : ℝ) ≤ u ^ 2 by push_cast; nlinarith)
      rw [h.int 1600 (by norm_num)] at this
      exact_mod_cast this
    have h2 : M.rd (-(1 / 2) * M.rd (u ^ 2)) ≤ -800 := by
      have := h.mono (show -(1 / 2) * M.rd (u ^ 2) ≤ ((-800 : ℤ) : ℝ) by push_cast; linarith)
      rw [h.int (-800) (by norm_num)] at this
      exact_mod_cast this
    rw [h.exp _ (exp_tiny (by linarith)), zero_div, h.zero]
  · unfold flCdf
    have h1 : (28 : ℝ) ≤ M.rd (-u / M.sqrt2) := by
      have h3 : ((28 : ℤ) : ℝ) ≤ -u / M.sqrt2 := by
        rw [le_div_iff₀ h.sqrt2.1]
        push_cast
        nlinarith [h.sqrt2.2]
      have := h.mono h3
      rw [h.int 28 (by norm_num)] at this
      exact_mod_cast this
    have h2 := (erfc_le_exp (show 1 ≤ M.rd (-u / M.sqrt2) by linarith)).trans
      (exp_tiny (show -M.rd (-u / M.sqrt2) ^ 2 ≤ -756 by nlinarith))
    rw [h.erfc _ h2, mul_zero, h.zero]

/-- No mean below the incumbent and a jitter of forty deviations: the standardized improvement is at most `-40`. -/
theorem flU_far {M : FlMath} (h : Underflow M) {jitter fmin m s : ℝ} (hj : M.rd (-jitter) = -jitter) (hm : fmin ≤ m)
    (hs : 40 * clipStd s ≤ jitter) : flU M jitter fmin m s ≤ -40 := by
  have hc := clipStd_pos s
  have h1 : M.rd (fmin - m) ≤ 0 := by
    have := h.mono (show fmin - m ≤ 0 by linarith)
    rwa [h.zero] at this
  have h2 : M.rd (M.rd (fmin - m) - jitter) ≤ -jitter := by
    have := h.mono (show M.rd (fmin - m) - jitter ≤ -jitter by linarith)
    rwa [hj] at this
  have h3 : M.rd (M.rd (fmin - m) - jitter) / clipStd s ≤ ((-40 : ℤ) : ℝ) := by
    rw [div_le_iff₀ hc]
    push_cast
    linarith
  have := h.mono h3
  rw [h.int (-40) (by norm_num)] at this
  exact_mod_cast this

/-- **C173** fails, at a location: the computed expected improvement, the computed probability of improvement and their gradients
are zero, though the first two are positive by `C32` and `C125` tells the locations apart. -/
theorem C173_zero_counterexample {M : FlMath} (h : Underflow M) {jitter fmin m s : ℝ} (hj : M.rd (-jitter) = -jitter)
    (hm : fmin ≤ m) (hs : 40 * clipStd s ≤ jitter) :
    flEi M jitter fmin m s = 0 ∧ flMpi M jitter fmin m s = 0 ∧
      (∀ dm ds, flEiGrad M jitter fmin m s dm ds = 0 ∧ flMpiGrad M jitter fmin m s dm ds = 0) ∧
      0 < eiValue jitter fmin m s ∧ 0 < mpiValue jitter fmin m s := by
  obtain ⟨h1, h2⟩ := quantiles_zero h (flU_far h hj hm hs)
  refine ⟨?_, ?_, fun dm ds => ⟨?_, ?_⟩, ?_, ?_⟩
  · simp only [flEi, h1, h2, mul_zero, add_zero, h.zero]
  · simp only [flMpi, h2]
  · simp only [flEiGrad, h1, h2, mul_zero, zero_mul, sub_self, h.zero]
  · simp only [flMpiGrad, h1, zero_div, h.zero, neg_zero, zero_mul]
  · rw [eiValue_std]
    exact mul_pos (clipStd_pos s) (stdEI_pos _)
  · simp only [mpiValue, getQuantiles]
    exact ncdf_pos _

/-- The computed acquisition of a space and its gradient. -/
theorem weighted_zero {M : FlMath} (h : Underflow M) (ind cost : ℝ) :
    flWeighted M 0 ind cost = 0 ∧ ∀ dcost, flWeightedGrad M 0 0 ind cost dcost = 0 := by
  constructor
  · simp [flWeighted, h.zero]
  · intro dcost
    simp [flWeightedGrad, h.zero]

/-! ## What is suggested -/

/-- The local optimizer stays in the box, and looks at the function in the box only. -/
structure LooksIn (opt : (Vec → Py ℚ) → Vec → Py Vec) (b : Bounds) : Prop where
  stays : ∀ g x y, InBox b x → opt g x = .ok y → InBox b y
  looks : ∀ g g' x, InBox b x → (∀ y, InBox b y → g y = g' y) → opt g x = opt g' x

theorem applyOptimizer_agree {config : List Desc} {cs : Option (List ConstrDict)} {sp : Space}
    (h : designSpace config cs = .ok sp) (hb : sp.hasBandit = false)
    (hs : ∀ k ∈ sp.kinds, Samplable k) (hvar : sp.kinds ≠ []) (hk : AllCont sp.kinds)
    {context : Option Context} (hg : ValidContext sp context) {c : Ctx}
    (hc : contextManager sp context = .ok c) {dup : Option DupMgr}
    {opt : (Vec → Py ℚ) → Vec → Py Vec} (hopt : LooksIn opt c.noncontextBounds) {f f' : Vec → Py ℚ}
    (hf : ∀ x, ObjDomain sp.kinds x → f x = f' x)
    {x0 : Vec} (hz0 : ObjDomain sp.kinds x0) (hctx0 : HasContext sp context x0) :
    applyOptimizer sp (some c) dup opt f x0 = applyOptimizer sp (some c) dup opt f' x0 := by
  have hx0e : encodeRow sp.kinds x0 = x0 := encodeRow_cont hk hz0.length_eq
  obtain ⟨xs, hxs, hexp⟩ := x0NoContext_expand h hb hg hc hz0 hctx0
  rw [hx0e] at hxs hexp
  have hd0 := isDup_encode h hb dup hz0
  rw [hx0e] at hd0
  have hxbox : InBox c.noncontextBounds xs := by
    rw [bounds_cont h hb hk hc, inBox_iff (allCont_keep hk _)]
    have h1 := mapE_npGet_filter_range (freePos c) x0
    rw [← hz0.length_eq, ← noncontext_cont h hb hk hc] at h1
    simp only [x0NoContext] at hxs
    rw [hxs] at h1
    injection h1 with h1
    rw [h1]
    exact keep_forall₂ _ hz0 0
  have hex : ∀ y, InBox c.noncontextBounds y → ∃ z, c.expandVector sp y = .ok z ∧ ObjDomain sp.kinds z := by
    intro y hy
    rw [bounds_cont h hb hk hc, inBox_iff (allCont_keep hk _)] at hy
    obtain ⟨z, e1, e2, -, -⟩ := expand_encode h hb hg hc hy
    rw [encodeRow_cont (allCont_keep hk _) hy.length_eq, encodeRow_cont hk e2.length_eq] at e1
    exact ⟨z, e1, e2⟩
  have hsame : opt (fNoContext (some c) sp f) xs = opt (fNoContext (some c) sp f') xs :=
    hopt.looks _ _ _ hxbox fun y hy => by
      obtain ⟨z, e1, e2⟩ := hex y hy
      simp only [fNoContext, e1, hf z e2]
  unfold applyOptimizer
  simp only [hxs, hd0, hsame, hf x0 hz0]
  by_cases hin : InDup dup x0
  · simp [hin]
  simp only [hin, decide_false]
  cases ho : opt (fNoContext (some c) sp f') xs with
  | error e => rfl
  | ok y =>
    obtain ⟨z, e1, e2⟩ := hex y (hopt.stays _ _ _ hxbox ho)
    have hround : sp.roundOptimum2d [z] = .ok [z] := by
      have hk' := space_kinds_eq h
      have := C04_round_fixed h hb (fun k hkk => samplable_nonEmpty (hs k (hk' ▸ hkk))) (hk' ▸ hvar)
        (encodeRow sp.kinds z) (hk' ▸ encodeRow_modelDomain e2)
      rw [encodeRow_cont hk e2.length_eq] at this
      simpa [Space.roundOptimum2d] using this
    simp only [addContext, e1, hround, hf z e2]

theorem objectiveScores_agree {f f' : Vec → Py ℚ} {X : Mat} (h : ∀ x ∈ X, f x = f' x) :
    objectiveScores f X = objectiveScores f' X := by
  unfold objectiveScores
  induction X with
  | nil => rfl
  | cons x X ih => simp only [mapE, h x (by simp), ih fun y hy => h y (by simp [hy])]

theorem mapE_agree {α β : Type} {f g : α → Py β} {l : List α} (h : ∀ x ∈ l, f x = g x) : mapE f l = mapE g l := by
  induction l with
  | nil => rfl
  | cons x X ih => simp only [mapE, h x (by simp), ih fun y hy => h y (by simp [hy])]

/-- Acquisitions with the same values on the domain have the same suggestion (spaces of continuous variables). -/
theorem acqOptimize_agree {config : List Desc} {cs : Option (List ConstrDict)} {sp : Space}
    (h : designSpace config cs = .ok sp) (hb : sp.hasBandit = false)
    (hs : ∀ k ∈ kindsOf config, Samplable k) (hvar : kindsOf config ≠ []) (hk : AllCont (kindsOf config))
    {context : Option Context} (hg : ValidContext sp context) {c : Ctx}
    (hc : contextManager sp context = .ok c) (dup : Option DupMgr) {op : AcqOptions} (hop : GoodOptions op)
    {o : AcqOracle} (ho : GoodAcq o) (hopt : ∀ k, LooksIn (o.opt k) c.noncontextBounds) {f f' : Vec → Py ℚ}
    (hf : ∀ x, ObjDomain (kindsOf config) x → f x = f' x) :
    acqOptimize sp c dup op o f = acqOptimize sp c dup op o f' := by
  rw [← space_kinds_eq h] at hs hvar hk hf
  have hanc : acqAnchors sp c dup op o f = acqAnchors sp c dup op o f' := by
    unfold acqAnchors
    split_ifs with h1
    · unfold anchorPoints
      obtain ⟨ds, sp', -, -, -, h3⟩ := anchorSamples_spec h hb hs hg hc ho.unit (t := "random") (by simp) hop.nObj false
      rcases h3 with ⟨e, -, h5, -⟩ | ⟨m, Z, -, -, h6, h7⟩
      · simp only [h5]
      · simp only [h6]
        cases mapE (isDup dup sp) (Z.map (encodeRow sp.kinds)) with
        | error e => rfl
        | ok flags =>
          simp only
          rw [objectiveScores_agree fun x hx => ?_]
          have hx := Corr.nonDuplicates_mem hx
          obtain ⟨z, hz, rfl⟩ := List.mem_map.1 hx
          obtain ⟨r, _, hr⟩ := forall₂_mem_right h7 hz
          rw [encodeRow_cont hk hr.1.length_eq]
          exact hf z hr.1
    · rfl
    · rfl
  unfold acqOptimize
  rw [hanc]
  cases chooseOptimizer op.optimizerName with
  | error e => rfl
  | ok u =>
    cases ha : acqAnchors sp c dup op o f' with
    | error e => rfl
    | ok as =>
      have hopt' : optimizedPoints sp (some c) dup o.opt f as = optimizedPoints sp (some c) dup o.opt f' as := by
        refine mapE_agree fun q hq => ?_
        obtain ⟨a, k⟩ := q
        obtain ⟨z0, ⟨e1, e2, e3⟩, -⟩ := (acqAnchors_sound h hb hs hg hc hop ho ha).1 a (by
          have := List.mem_zipIdx hq
          rw [this.2.2]; exact List.getElem_mem _)
        rw [encodeRow_cont hk e2.length_eq] at e1
        subst e1
        exact applyOptimizer_agree h hb hs hvar hk hg hc (hopt k) hf e2 e3
      simp only [hopt']

/-- The model is sure: forty deviations fit into the jitter at every location of the domain, and no mean is below the incumbent. -/
structure Sure (ks : List Kind) (jitter : ℝ) (b : Belief) : Prop where
  above : ∀ x, ObjDomain ks x → b.fmin ≤ b.mean x
  narrow : ∀ x, ObjDomain ks x → 40 * clipStd (b.dev x) ≤ jitter

/-- The numbers `f` that are minimized are the computed acquisition. -/
def ComputedF (M : FlMath) (ks : List Kind) (acq : FlMath → ℝ → ℝ → ℝ → ℝ → ℝ) (jitter : ℝ) (b : Belief) (f : Vec → Py ℚ) : Prop :=
  ∀ x, ObjDomain ks x → ∃ (v : ℚ) (ind cost : ℝ), f x = .ok v ∧
    (v : ℝ) = flWeighted M (acq M jitter b.fmin (b.mean x) (b.dev x)) ind cost

theorem computed_zero {M : FlMath} (hM : Underflow M) {ks : List Kind} {acq : FlMath → ℝ → ℝ → ℝ → ℝ → ℝ}
    (hacq : acq = flEi ∨ acq = flMpi) {jitter : ℝ} (hj : M.rd (-jitter) = -jitter) {b : Belief} (hb : Sure ks jitter b)
    {f : Vec → Py ℚ} (hf : ComputedF M ks acq jitter b f) {x : Vec} (hx : ObjDomain ks x) : f x = .ok 0 := by
  obtain ⟨v, ind, cost, h1, h2⟩ := hf x hx
  obtain ⟨z1, z2, -⟩ := C173_zero_counterexample hM hj (hb.above x hx) (hb.narrow x hx)
  have h3 : acq M jitter b.fmin (b.mean x) (b.dev x) = 0 := by
    rcases hacq with rfl | rfl
    · exact z1
    · exact z2
  rw [h3, (weighted_zero hM ind cost).1] at h2
  rw [h1]
  congr 1
  exact_mod_cast h2

/-- **C173** fails, for suggestions: once the model is sure, the suggestion of expected improvement (and of the probability of
improvement) does not depend on it. Two models, whatever their means, their incumbents, the costs and the constraints they
are weighted with, have the same suggestion, and it is the one for an acquisition that is zero. -/
theorem C173_blind_counterexample {M : FlMath} (hM : Underflow M) {config : List Desc} {cs : Option (List ConstrDict)} {sp : Space}
    (h : designSpace config cs = .ok sp) (hb : sp.hasBandit = false)
    (hs : ∀ k ∈ kindsOf config, Samplable k) (hvar : kindsOf config ≠ []) (hk : AllCont (kindsOf config))
    (context : Option Context) (hg : ValidContext sp context) (c : Ctx) (hc : contextManager sp context = .ok c)
    (dup : Option DupMgr) (op : AcqOptions) (hop : GoodOptions op) (o : AcqOracle) (ho : GoodAcq o)
    (hopt : ∀ k, LooksIn (o.opt k) c.noncontextBounds) (jitter : ℝ) (hj : M.rd (-jitter) = -jitter)
    (acq : FlMath → ℝ → ℝ → ℝ → ℝ → ℝ) (hacq : acq = flEi ∨ acq = flMpi) (b b' : Belief)
    (h1 : Sure (kindsOf config) jitter b) (h2 : Sure (kindsOf config) jitter b') (f f' : Vec → Py ℚ)
    (hf : ComputedF M (kindsOf config) acq jitter b f) (hf' : ComputedF M (kindsOf config) acq jitter b' f') :
    acqOptimize sp c dup op o f = acqOptimize sp c dup op o f' ∧
      acqOptimize sp c dup op o f = acqOptimize sp c dup op o fun _ => .ok 0 :=
  ⟨acqOptimize_agree h hb hs hvar hk hg hc dup hop ho hopt fun x hx => by
      rw [computed_zero hM hacq hj h1 hf hx, computed_zero hM hacq hj h2 hf' hx],
    acqOptimize_agree h hb hs hvar hk hg hc dup hop ho hopt fun x hx => computed_zero hM hacq hj h1 hf hx⟩

/-! ## Where nothing underflows -/

theorem npdf_mono {u v : ℝ} (hv : v ≤ 0) (h : u ≤ v) : npdf u ≤ npdf v := by
  unfold npdf
  have h1 : v ^ 2 ≤ u ^ 2 := by nlinarith
  have h2 : -(1 / 2) * u ^ 2 ≤ -(1 / 2) * v ^ 2 := by linarith
  gcongr

theorem ncdf_ge {u d : ℝ} (hd : 0 < d) (hu : u ≤ 0) : d * npdf (u - d) ≤ ncdf u := by
  obtain ⟨x, hx, hs⟩ := exists_hasDerivAt_eq_slope ncdf npdf (show u - d < u by linarith)
    (fun x _ => (hasDerivAt_ncdf x).continuousAt.continuousWithinAt) fun x _ => hasDerivAt_ncdf x
  have h1 : npdf (u - d) ≤ npdf x := npdf_mono (by linarith [hx.2]) hx.1.le
  have h2 := ncdf_pos (u - d)
  rw [hs, le_div_iff₀ (by linarith)] at h1
  nlinarith

theorem stdEI_ge_npdf {u d : ℝ} (hd : 0 < d) (hu : u ≤ 0) : d ^ 2 * npdf (u - 2 * d) ≤ stdEI u := by
  have h1 := stdEI_tangent (u - d) u
  have h2 := stdEI_pos (u - d)
  have h3 := ncdf_ge hd (show u - d ≤ 0 by linarith)
  rw [show u - d - d = u - 2 * d by ring] at h3
  nlinarith

theorem npdf_normal {u : ℝ} (hu : -37 ≤ u) (hu' : u ≤ 0) : 1 / 2 ^ 990 ≤ npdf u := by
  have h0 : npdf (-37) ≤ npdf u := npdf_mono hu' hu
  refine le_trans ?_ h0
  unfold npdf
  have h1 : √(2 * Real.pi) ≤ 4 := by
    rw [Real.sqrt_le_left (by norm_num)]
    have := Real.pi_le_four
    linarith
  have h2 : Real.exp (1369 / 2) * 4 ≤ 2 ^ 990 := by
    have e2 : Real.exp (1369 / 2) ≤ 2 ^ 988 := by
      rw [two_pow_exp 988]
      refine Real.exp_le_exp.2 ?_
      have := Real.log_two_gt_d9
      push_cast
      linarith
    calc Real.exp (1369 / 2) * 4 ≤ 2 ^ 988 * 4 := by gcongr
      _ = 2 ^ (988 + 2) := by rw [pow_add]; norm_num
  have hpi : 0 < √(2 * Real.pi) := Real.sqrt_pos.2 (by positivity)
  rw [div_le_div_iff₀ (by positivity) hpi, one_mul, show -(1 / 2) * (-37 : ℝ) ^ 2 = -(1369 / 2) by norm_num, Real.exp_neg,
    inv_mul_eq_div, le_div_iff₀ (Real.exp_pos _)]
  calc √(2 * Real.pi) * Real.exp (1369 / 2) ≤ 4 * Real.exp (1369 / 2) := by gcongr
    _ ≤ 2 ^ 990 := (mul_comm _ _).le.trans h2

/-- **C173**, what holds: if the target is below the mean by at most 36 deviations, then density, probability and standardized
improvement are at least `2^-1010`, and the expected improvement is at least `2^-1010` deviations. The smallest number that a double holds
in full precision is `2^-1022`, so nothing underflows, and the order of the computed values is that of `C136`. Missing: locations
that are further from the target, where it is false by the theorems above. -/
theorem C173_partial {jitter fmin m s : ℝ} (hu : -36 * clipStd s ≤ fmin - m - jitter) (hm : fmin - m - jitter ≤ 0) :
    let u := (fmin - m - jitter) / clipStd s
    1 / 2 ^ 990 ≤ npdf u ∧ 1 / 2 ^ 1000 ≤ mpiValue jitter fmin m s ∧ 1 / 2 ^ 1010 ≤ u * ncdf u + npdf u ∧
      clipStd s / 2 ^ 1010 ≤ eiValue jitter fmin m s := by
  intro u
  have hc := clipStd_pos s
  have h1 : -36 ≤ u := by rw [le_div_iff₀ hc]; exact hu
  have h2 : u ≤ 0 := div_nonpos_of_nonpos_of_nonneg hm hc.le
  have h3 := npdf_normal (u := u) (by linarith) h2
  have h4 : 1 / 2 ^ 1000 ≤ ncdf u := by
    refine le_trans ?_ (ncdf_ge (show (0 : ℝ) < 1 / 2 ^ 10 by norm_num) h2)
    have := npdf_normal (u := u - 1 / 2 ^ 10) (by norm_num; linarith) (by norm_num; linarith)
    calc (1 : ℝ) / 2 ^ 1000 = 1 / 2 ^ 10 * (1 / 2 ^ 990) := inv_pow_split 990 10
      _ ≤ _ := by gcongr
  have h5 : 1 / 2 ^ 1010 ≤ stdEI u := by
    refine le_trans ?_ (stdEI_ge_npdf (show (0 : ℝ) < 1 / 2 ^ 10 by norm_num) h2)
    have := npdf_normal (u := u - 2 * (1 / 2 ^ 10)) (by norm_num; linarith) (by norm_num; linarith)
    calc (1 : ℝ) / 2 ^ 1010 = 1 / 2 ^ 20 * (1 / 2 ^ 990) := inv_pow_split 990 20
      _ = (1 / 2 ^ 10) ^ 2 * (1 / 2 ^ 990) := by congr 1; norm_num
      _ ≤ _ := by gcongr
  refine ⟨h3, ?_, h5, ?_⟩
  · simpa only [mpiValue, getQuantiles] using h4
  · rw [eiValue_std, div_eq_mul_one_div]
    exact mul_le_mul_of_nonneg_left h5 hc.le

/-! ## Arithmetic that meets the hypotheses -/

/-- Rounding to whole multiples of the smallest double. -/
noncomputable def gridRd (y : ℝ) : ℝ := (round (y * 2 ^ 1074) : ℤ) / 2 ^ 1074

theorem gridRd_tiny {y : ℝ} (h0 : 0 ≤ y) (h : y ≤ 1 / 2 ^ 1080) : gridRd y = 0 := by
  have h1 : y * 2 ^ 1074 ≤ 1 / 2 ^ 6 := by
    calc y * 2 ^ 1074 ≤ 1 / 2 ^ (1074 + 6) * 2 ^ 1074 := by gcongr
      _ = 1 / 2 ^ 6 := by rw [inv_pow_split, mul_assoc, one_div_mul_cancel (by positivity), mul_one]
  have h2 : round (y * 2 ^ 1074) = 0 := by
    rw [round_eq, Int.floor_eq_zero_iff]
    have h3 : 0 ≤ y * 2 ^ 1074 := by positivity
    generalize y * 2 ^ 1074 = z at *
    constructor
    · linarith
    · norm_num at h1 ⊢
      linarith
  simp [gridRd, h2]

noncomputable def gridMath : FlMath :=
  ⟨gridRd, fun x => gridRd (Real.exp x), fun x => gridRd (GPyOpt.erfc x), √2, √(2 * Real.pi)⟩

theorem gridRd_multiple (n : ℤ) (k : ℕ) (hk : k ≤ 1074) : gridRd (n / 2 ^ k) = n / 2 ^ k := by
  obtain ⟨j, hj⟩ := Nat.exists_eq_add_of_le hk
  have h1 : (n : ℝ) / 2 ^ k * 2 ^ 1074 = ((n * 2 ^ j : ℤ) : ℝ) := by
    rw [hj, pow_add]
    push_cast
    field_simp
  unfold gridRd
  rw [h1, round_intCast, ← h1, mul_div_cancel_right₀ _ (by positivity)]

theorem underflow_grid : Underflow gridMath where
  mono := by
    intro a b hab
    simp only [gridMath, gridRd, round_eq]
    have : ⌊a * 2 ^ 1074 + 1 / 2⌋ ≤ ⌊b * 2 ^ 1074 + 1 / 2⌋ := Int.floor_mono (by gcongr)
    have : ((⌊a * 2 ^ 1074 + 1 / 2⌋ : ℤ) : ℝ) ≤ ⌊b * 2 ^ 1074 + 1 / 2⌋ := by exact_mod_cast this
    gcongr
  int n _ := by
    have := gridRd_multiple n 0 (by norm_num)
    simpa only [gridMath, pow_zero, div_one] using this
  exp x h := gridRd_tiny (Real.exp_pos x).le h
  erfc x h := gridRd_tiny (by rw [erfc_eq_ncdf]; have := ncdf_pos (-(√2 * x)); positivity) h
  sqrt2 := ⟨by simp only [gridMath]; positivity, by
    simp only [gridMath]
    rw [Real.sqrt_le_left (by norm_num)]
    norm_num⟩

/-- Non-vacuity: a jitter of `1/64`, a deviation of `1/4096`, and any mean above the incumbent. -/
example (m : ℝ) (hm : 0 ≤ m) : flEi gridMath (1 / 64) 0 m (1 / 4096) = 0 ∧ 0 < eiValue (1 / 64) 0 m (1 / 4096) := by
  have hj : gridMath.rd (-(1 / 64)) = -(1 / 64) := by
    have := gridRd_multiple (-1) 6 (by norm_num)
    norm_num at this
    simpa [gridMath] using this
  have h := C173_zero_counterexample underflow_grid hj hm (s := 1 / 4096) (by norm_num [clipStd])
  exact ⟨h.1, h.2.2.2.1⟩

/-- Non-vacuity: two models of the unit interval that disagree where the best location is. -/
example {sp : Space} (h : designSpace exUnitLine none = .ok sp) {c : Ctx} (hc : contextManager sp none = .ok c)
    (o : AcqOracle) (ho : GoodAcq o) (hopt : ∀ k, LooksIn (o.opt k) c.noncontextBounds) (f f' : Vec → Py ℚ)
    (hf : ComputedF gridMath [.continuous 0 1] flEi (1 / 64) ⟨fun x => |((x.headD 0 : ℚ) : ℝ)|, fun _ => 1 / 4096, 0, 0, 1⟩ f)
    (hf' : ComputedF gridMath [.continuous 0 1] flEi (1 / 64) ⟨fun x => |1 - ((x.headD 0 : ℚ) : ℝ)|, fun _ => 1 / 8192, 0, 0, 1⟩ f') :
    acqOptimize sp c none {} o f = acqOptimize sp c none {} o f' := by
  have hk : kindsOf exUnitLine = [.continuous 0 1] := by decide +kernel
  have hb : sp.hasBandit = false := by
    have : (designSpace exUnitLine none).map Space.hasBandit = .ok false := by decide +kernel
    rw [h] at this
    simpa [Except.map] using this
  refine (C173_blind_counterexample underflow_grid h hb (by rw [hk]; simp [Samplable]) (by rw [hk]; simp)
    (by rw [hk]; intro k hk; exact ⟨0, 1, by simpa using hk⟩) none (by simp [ValidContext]) c hc none {} ⟨by decide, by decide, by decide⟩ o ho hopt
    (1 / 64) ?_ flEi (.inl rfl) _ _ ?_ ?_ f f' (hk ▸ hf) (hk ▸ hf')).1
  · have := gridRd_multiple (-1) 6 (by norm_num)
    norm_num at this
    simpa [gridMath] using this
  · exact ⟨fun x _ => abs_nonneg _, fun x _ => by norm_num [clipStd]⟩
  · exact ⟨fun x _ => abs_nonneg _, fun x _ => by norm_num [clipStd]⟩

/-- Local optimizers that stay at the start look nowhere. -/
example (b : Bounds) : LooksIn (fun _ x => .ok x) b := ⟨fun _ _ _ hx h => by cases h; exact hx, fun _ _ _ _ _ => rfl⟩

/-- Non-vacuity of the positive part: five deviations above the target. -/
example : (1 : ℝ) / 2 ^ 1010 ≤ eiValue 0 0 5 1 := by
  have h1 : clipStd 1 = 1 := if_neg (by norm_num)
  have := (C173_partial (jitter := 0) (fmin := 0) (m := 5) (s := 1) (by rw [h1]; norm_num) (by norm_num)).2.2.2
  rwa [h1] at this

end GPyOpt.Props
