import Verif.Props.RegretEICost
import Verif.Lemmas.GaussMoments

/-!
# C186: search by the probability of improvement per cost

The acquisition divides the probability of improvement by the cost (`GPyOpt/acquisitions/base.py:33-40`, `GPyOpt/acquisitions/MPI.py:32-40`). With costs
between `lo` and `hi` a suggestion has a probability of improvement of at least `lo / hi` times the one of every sample, up to the error
of the acquisition, so that the bound of C173 holds for a larger `w'`.
-/

namespace GPyOpt.Props

open GPyOpt Spec

/-- One step in standardized units: `x` is suggested, `z` was sampled and is better than the incumbent by the jitter. -/
theorem costly_probability {ks : List Kind} {F : Vec → ℚ} {w w' δ η jitter lo hi cx cz : ℝ} (hw : 0 ≤ w)
    (hη : ncdf (-w') < lo * (ncdf (-w) / hi - 2 * η)) {X : Mat} {b : Belief} (hb : Trusted ks F w δ X b) {x z : Vec}
    (hx : ObjDomain ks x) (hz : ObjDomain ks z) (hlo : 0 < lo) (hcx : lo ≤ cx ∧ cx ≤ hi) (hcz : lo ≤ cz ∧ cz ≤ hi)
    (hle : mpiAcquisition jitter b.fmin (b.mean x) (b.dev x) 1 cx
      ≤ mpiAcquisition jitter b.fmin (b.mean z) (b.dev z) 1 cz + 2 * η)
    (hzf : b.std (F z) ≤ b.fmin - jitter) :
    b.std (F x) ≤ b.fmin - jitter + (w + w') * clipStd (b.dev x) := by
  have px : 0 < cx := by linarith
  have pz : 0 < cz := by linarith
  have hex : mpiAcquisition jitter b.fmin (b.mean x) (b.dev x) 1 cx =
      mpiAcquisition jitter b.fmin (b.mean x) (b.dev x) 1 1 / cx := by simp [mpiAcquisition, weightedAcq]
  have hez : mpiAcquisition jitter b.fmin (b.mean z) (b.dev z) 1 cz =
      mpiAcquisition jitter b.fmin (b.mean z) (b.dev z) 1 1 / cz := by simp [mpiAcquisition, weightedAcq]
  rw [hex, hez, mpiAcquisition_std, mpiAcquisition_std] at hle
  have hsx := clipStd_pos (b.dev x)
  have hsz := clipStd_pos (b.dev z)
  have h1 : -w ≤ (b.fmin - b.mean z - jitter) / clipStd (b.dev z) := by
    rw [le_div_iff₀ hsz]
    linarith [(abs_le.1 (clip_covers hw (hb.covers z hz))).1]
  have h2 := ncdf_strictMono.monotone h1
  have h3 : -w' < (b.fmin - b.mean x - jitter) / clipStd (b.dev x) := by
    refine ncdf_strictMono.lt_iff_lt.1 ?_
    have p0 := ncdf_pos (-w')
    have e1 : ncdf (-w) / hi ≤ ncdf ((b.fmin - b.mean z - jitter) / clipStd (b.dev z)) / cz :=
      div_le_div₀ (ncdf_pos _).le h2 pz hcz.2
    rw [neg_div, neg_div] at hle
    have e2 : ncdf (-w) / hi - 2 * η ≤ ncdf ((b.fmin - b.mean x - jitter) / clipStd (b.dev x)) / cx := by linarith
    have e3 : 0 < ncdf (-w) / hi - 2 * η := by
      by_contra hn
      have := mul_nonpos_of_nonneg_of_nonpos hlo.le (not_lt.1 hn)
      linarith
    have e4 := mul_le_mul hcx.1 e2 e3.le px.le
    rw [mul_div_cancel₀ _ px.ne'] at e4
    linarith
  rw [lt_div_iff₀ hsx] at h3
  have h4 := (abs_le.1 (clip_covers hw (hb.covers x hx))).2
  linarith

/-- **C186**, a run: as `C183_mpi_run`, for the probability of improvement per cost. The costs in the domain are between `lo` and
`hi`, and may differ from iteration to iteration. Only `w'` depends on them. -/
theorem C186_run {config : List Desc} {sp : Space} (h : designSpace config none = .ok sp) (hb : sp.hasBandit = false)
    (hs : ∀ k ∈ kindsOf config, Samplable k) (hvar : kindsOf config ≠ []) (hk : AllCont (kindsOf config))
    (ev : Evaluator) (hev : ∀ n, ev ≠ .thompson n) (deDup : Bool) (hgev : GoodEvaluator deDup ev)
    (w w' η jitter : ℝ) (hw : 0 ≤ w) (hj : 0 ≤ jitter) (lo hi : ℝ) (hlo : 0 < lo)
    (hη : ncdf (-w') < lo * (ncdf (-w) / hi - 2 * η))
    (cost : BOState → Vec → ℝ) (hcost : ∀ t x, ObjDomain (kindsOf config) x → lo ≤ cost t x ∧ cost t x ≤ hi) (δ : BOState → ℝ)
    (b : BOState → Belief) (F : Vec → ℚ)
    (hcal : ∀ t, t.Y = some (t.X.map F) → t.X ≠ [] → Trusted (kindsOf config) F w (δ t) t.X (b t))
    (envs : BOState → EvalEnv) (henvs : ∀ t, GoodEnv (envs t)) (hlp : ∀ t k, GoodAcq ((envs t).acqLP k))
    (hns : ∀ t n, ev = .random n → n - 1 ≤ (envs t).numSamplesRandom)
    (hf : ∀ t, NearlyOrders (2 * η) (firstEnv ev (envs t)).f fun x =>
      mpiAcquisition jitter (b t).fmin ((b t).mean x) ((b t).dev x) 1 (cost t x))
    (hlogic : ∀ t, (envs t).op.anchorLogic = "max_objective")
    (hzero : (∃ n, ev = .random n) → deDup = true → ∀ x, ObjDomain (kindsOf config) x → ∃ v ∈ x, v ≠ 0) (env : BOEnv)
    (hsug : env.suggest = stdSuggest sp ev envs deDup) (hobj : env.obj = some fun _ x => .ok (F x))
    (a : RunArgs) (hg : ValidContext sp a.context)
    (hopt : ∀ t c, contextManager sp a.context = .ok c → ∀ k,
      Descends ((firstEnv ev (envs t)).oracle.acq.opt k) c.noncontextBounds)
    (fuel : Nat) (s s' : BOState) (why : Stop) (hX : ∀ x ∈ s.X, ObjDomain (kindsOf config) x)
    (hY : s.Y = none ∨ s.Y = some (s.X.map F)) (hrun : runOptimization env a fuel s = (s', .done why))
    (x0 : Vec) (hx0 : x0 ∈ s.X) :
    ∃ (r : Results) (σ : Nat → BOState) (B : Nat → Mat) (x : Nat → Vec) (Z : Nat → Mat), s'.results = some r ∧
      BatchIterates F 0 a.context s.X s' σ B ∧
      (∀ k < s'.numAcq, (B k).head? = some (x k) ∧ Sampled config sp a.context (firstEnv ev (envs (σ k))).oracle.acq.design
        (envs (σ k)).op.numSamplesObjective (Z k)) ∧
      ∀ q : ℚ, (∀ k < s'.numAcq, ∃ z ∈ Z k, F z ≤ q) →
        (∃ k < s'.numAcq, (r.fxOpt : ℝ) ≤ q + (b (σ k)).scale * (jitter + w * δ (σ k))) ∨
        (∑ k ∈ Finset.range s'.numAcq, max 0 ((b (σ k)).scale *
            (jitter - w * δ (σ k) - (w + w') * clipStd ((b (σ k)).dev (x k)))) ≤ F x0 - r.fxOpt ∧
          ∀ σ₀ : ℝ, 0 ≤ σ₀ → (∀ k < s'.numAcq, σ₀ ≤ (b (σ k)).scale) →
            (((Finset.range s'.numAcq).filter fun k =>
              w * δ (σ k) + (w + w') * clipStd ((b (σ k)).dev (x k)) ≤ jitter / 2).card : ℝ) * (σ₀ * (jitter / 2))
              ≤ F x0 - r.fxOpt) := by
  have hfirst : ∀ t, GoodAcq (firstEnv ev (envs t)).oracle.acq := by
    intro t
    cases ev with
    | localPenalization n => exact hlp t 0
    | sequential => exact (henvs t).acq
    | random n => exact (henvs t).acq
    | thompson n => exact (henvs t).acq
  obtain ⟨r, σ, B, x, Z, r1, r2, r3, r4⟩ := run_batches (ks := kindsOf config) (F := F) (env := env)
    (P := fun t x Z => Sampled config sp a.context (firstEnv ev (envs t)).oracle.acq.design (envs t).op.numSamplesObjective Z ∧
      Trusted (kindsOf config) F w (δ t) t.X (b t) ∧
      ∀ z ∈ Z, z ∉ t.X → (b t).std (F z) ≤ (b t).fmin - jitter →
        (b t).std (F x) ≤ (b t).fmin - jitter + (w + w') * clipStd ((b t).dev x)) hobj a
    (fun t m t1 t2 t3 t4 => by
      rw [hsug] at t4
      unfold stdSuggest at t4
      rw [t1] at t4
      refine ⟨fun y hy => (suggestions_in_domain h hb hs hvar hg (henvs t) (hlp t) hgev (hns t) t4 y hy).1, ?_⟩
      obtain ⟨x, rest, Z, e1, e2, e3, -, e4⟩ := least_first h hb hs hvar hk a.context hg ev hev (envs t) (henvs t).op (hfirst t)
        (hlogic t) (hopt t) deDup hzero t.X m t4
      refine ⟨x, rest, Z, e1, e3, hcal t t2 t3, fun z hz hzX hzf => ?_⟩
      obtain ⟨hz1, hz2⟩ := e4 z hz
      obtain ⟨u, v, hu, hv, huv⟩ := hz2.resolve_left hzX
      exact costly_probability hw hη (hcal t t2 t3) e2 hz1 hlo (hcost t x e2) (hcost t z hz1) (hf t _ _ _ _ hu hv huv) hzf)
    (List.ne_nil_of_mem hx0) hX hY hrun
  refine ⟨r, σ, B, x, Z, r1, r3, fun k hk => ⟨(r4 k hk).1, (r4 k hk).2.2.1⟩, fun q hq => ?_⟩
  obtain ⟨b1, b2, b3⟩ := batches_best r3 (fun k hk => (r4 k hk).1) r2 hx0
  refine jitter_total hw hj b1 b2 b3 (fun k hk => ⟨(r4 k hk).2.1, (r4 k hk).2.2.2.1⟩) fun k hk => ?_
  obtain ⟨z, hz, hzq⟩ := hq k hk
  exact ⟨z, hzq, (r4 k hk).2.2.2.2 z hz⟩

/-- **C186** (negation without a bound on the costs): however small the probability of improvement at one location is, and however large
at another, a large enough cost makes the first preferred. -/
theorem C186_costs_counterexample (jitter fmin m s m' s' : ℝ) :
    ∃ c, 1 ≤ c ∧ ∀ c' ≥ c, mpiAcquisition jitter fmin m s 1 1 < mpiAcquisition jitter fmin m' s' 1 c' := by
  have hz : mpiAcquisition jitter fmin m s 1 1 < 0 := by
    rw [mpiAcquisition_std]
    exact neg_neg_of_pos (ncdf_pos _)
  set A := mpiAcquisition jitter fmin m s 1 1 with hA
  set B := mpiAcquisition jitter fmin m' s' 1 1 with hB
  refine ⟨max 1 (B / A + 1), le_max_left _ _, fun c' hc' => ?_⟩
  have h1 : 0 < c' := one_pos.trans_le ((le_max_left _ _).trans hc')
  have h2 : B / A < c' := by
    have := (le_max_right _ _).trans hc'
    linarith
  have h3 : mpiAcquisition jitter fmin m' s' 1 c' = B / c' := by simp [hB, mpiAcquisition, weightedAcq]
  rw [h3, lt_div_iff₀ h1, mul_comm]
  rwa [div_lt_iff_of_neg hz] at h2

/-! ## An example: Lipschitz bounds -/

theorem exists_slack : ∃ W : ℝ, 0 ≤ W ∧ ncdf (-W) < ncdf (-1) / 4 := by
  have h := tendsto_ncdf_atBot.eventually_lt_const (show (0 : ℝ) < ncdf (-1) / 4 by linarith [ncdf_pos (-1)])
  obtain ⟨a, ha⟩ := (h.and (Filter.eventually_le_atBot 0)).exists
  exact ⟨-a, by linarith [ha.2], by simpa using ha.1⟩

/-- The number `w'` of the example, for `w = 1` and costs between one and two. -/
noncomputable def exSlack : ℝ := exists_slack.choose

/-- The error of the acquisition in the example. -/
noncomputable def exCostError : ℝ := ncdf (-1) / 16

theorem exCostError_pos : 0 < exCostError := by
  unfold exCostError
  linarith [ncdf_pos (-1)]

theorem exCostError_small : ncdf (-exSlack) < 1 * (ncdf (-1) / 2 - 2 * exCostError) := by
  have := exists_slack.choose_spec.2
  unfold exSlack exCostError
  linarith [ncdf_pos (-1)]

/-- The probability of improvement per cost, computed up to `exCostError`. -/
noncomputable def exCostlyMPIEnvs (t : BOState) : EvalEnv :=
  { exEnv with
    f := fun x => .ok (nearRat exCostError
      (mpiAcquisition (1 / 100) (exBelief t).fmin ((exBelief t).mean x) ((exBelief t).dev x) 1 (exTwice x)))
    oracle := ⟨exStay, exAcq⟩ }

/-- Bayesian optimization with it. -/
noncomputable def exCostlyMPIBO (n : Nat) (sp : Space) : BOEnv :=
  { exSearch sp with
    obj := some fun _ x => .ok (exValley x)
    suggest := stdSuggest sp (.random n) exCostlyMPIEnvs false }

/-- The hypotheses of `C186_run` are met by search with Lipschitz bounds and batches of two. -/
example {sp : Space} (h : designSpace exUnitLine none = .ok sp) (a : RunArgs) (ha : a.context = none) (fuel : Nat)
    (s' : BOState) (why : Stop) (hrun : runOptimization (exCostlyMPIBO 2 sp) a fuel (boInit [[0]] none .none) = (s', .done why)) :
    ∃ (r : Results) (σ : Nat → BOState) (B : Nat → Mat) (x : Nat → Vec) (Z : Nat → Mat), s'.results = some r ∧
      BatchIterates exValley 0 a.context [[0]] s' σ B ∧
      ∀ q : ℚ, (∀ k < s'.numAcq, ∃ z ∈ Z k, exValley z ≤ q) →
        JitterBound 1 exSlack (1 / 100) (fun _ => 0) exBelief σ x s'.numAcq q (exValley [0]) r.fxOpt := by
  have hk : kindsOf exUnitLine = [.continuous 0 1] := by decide +kernel
  have hb : sp.hasBandit = false := by
    have : (designSpace exUnitLine none).map Space.hasBandit = .ok false := by decide +kernel
    rw [h] at this
    simpa [Except.map] using this
  obtain ⟨r, σ, B, x, Z, h1, h2, -, h4⟩ := C186_run h hb (by rw [hk]; simp [Samplable]) (by rw [hk]; simp)
    (by rw [hk]; intro k hk; exact ⟨0, 1, by simpa using hk⟩) (.random 2) (by simp) false (by simp [GoodEvaluator])
    1 exSlack exCostError (1 / 100) zero_le_one (by norm_num) 1 2 one_pos exCostError_small (fun _ => exTwice)
    (fun _ x hx => by
      rw [hk] at hx
      obtain ⟨u, rfl⟩ : ∃ u, x = [u] := by
        have := hx.length_eq
        match x, this with
        | [u], _ => exact ⟨u, rfl⟩
      have hu : 0 ≤ u ∧ u ≤ 1 := by simpa [ObjDomain, ValidObj] using hx
      have h1 : (0 : ℝ) ≤ u := by exact_mod_cast hu.1
      have h2 : (u : ℝ) ≤ 1 := by exact_mod_cast hu.2
      simp only [exTwice, List.headD_cons]
      constructor <;> linarith) (fun _ => 0) exBelief exValley
    (fun t ht hne => by rw [hk]; exact exBelief_trusted t ht hne) exCostlyMPIEnvs
    (fun _ => ⟨⟨by simp [exCostlyMPIEnvs, exEnv], by simp [exCostlyMPIEnvs, exEnv], by simp [exCostlyMPIEnvs, exEnv]⟩, exStay_good, exAcq_good,
      by simp [exCostlyMPIEnvs, exEnv], by simp [exCostlyMPIEnvs, exEnv]⟩)
    (fun _ _ => exAcq_good) (fun t n hn => by cases hn; simp [exCostlyMPIEnvs, exEnv])
    (fun t => nearlyOrders_of_near fun x v hv => by
      simp only [firstEnv, exCostlyMPIEnvs, Except.ok.injEq] at hv
      subst hv
      rw [abs_sub_comm]
      exact (nearRat_spec exCostError_pos _).le) (fun _ => rfl) (by simp) (exCostlyMPIBO 2 sp) rfl rfl a
    (by simp [ValidContext, ha]) (fun t c _ k => exStay_descends k _) fuel _ s' why (by
      rw [hk]
      simp [boInit, ObjDomain, ValidObj]) (.inl rfl) hrun [0] (by simp [boInit])
  exact ⟨r, σ, B, x, Z, h1, h2, fun q hq => (h4 q hq).imp id fun h => h.1⟩

end GPyOpt.Props
