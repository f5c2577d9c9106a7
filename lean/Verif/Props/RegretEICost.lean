import Verif.Props.RegretBatchEI

/-!
# C185: search by expected improvement per cost
-/

namespace GPyOpt.Props

open GPyOpt Spec

theorem costRatio_ge {w lo hi c : ℝ} (hw : 0 ≤ w) (hlo : 0 < lo) (hc : lo ≤ c ∧ c ≤ hi) : 1 ≤ improvementRatio w * (hi / lo) := by
  have h1 : 1 ≤ hi / lo := by
    rw [one_le_div hlo]
    linarith
  nlinarith [improvementRatio_ge hw]

/-- One step in standardized units: `x` is suggested, `z` was sampled. -/
theorem costly_step {ks : List Kind} {F : Vec → ℚ} {w δ η jitter lo hi cx cz : ℝ} (hw : 0 ≤ w) (hη : 0 ≤ η) {X : Mat} {b : Belief}
    (hb : Trusted ks F w δ X b) {x z : Vec} (hx : ObjDomain ks x) (hz : ObjDomain ks z) (hlo : 0 < lo) (hcx : lo ≤ cx ∧ cx ≤ hi)
    (hcz : lo ≤ cz ∧ cz ≤ hi)
    (hle : eiAcquisition jitter b.fmin (b.mean x) (b.dev x) 1 cx
      ≤ eiAcquisition jitter b.fmin (b.mean z) (b.dev z) 1 cz + 2 * η) :
    b.fmin - jitter - b.std (F z) ≤ improvementRatio w * (hi / lo) *
      (max (b.fmin - jitter - b.std (F x)) 0 + (w + 1 / 2) * clipStd (b.dev x) + 2 * (η * lo)) := by
  have h1 := improvement_le_ei (T := b.fmin - jitter) hw (clipStd_pos (b.dev z)) (clip_covers hw (hb.covers z hz))
  have h2 := ei_le_improvement (T := b.fmin - jitter) (clipStd_pos (b.dev x)) (clip_covers hw (hb.covers x hx))
  have hR := improvementRatio_ge hw
  have px : 0 < cx := by linarith
  have pz : 0 < cz := by linarith
  have hex : eiAcquisition jitter b.fmin (b.mean x) (b.dev x) 1 cx =
      eiAcquisition jitter b.fmin (b.mean x) (b.dev x) 1 1 / cx := by simp [eiAcquisition, weightedAcq]
  have hez : eiAcquisition jitter b.fmin (b.mean z) (b.dev z) 1 cz =
      eiAcquisition jitter b.fmin (b.mean z) (b.dev z) 1 1 / cz := by simp [eiAcquisition, weightedAcq]
  rw [hex, hez, eiAcquisition_std, eiAcquisition_std] at hle
  have ex0 := (mul_pos (clipStd_pos (b.dev x)) (stdEI_pos ((b.fmin - jitter - b.mean x) / clipStd (b.dev x)))).le
  generalize clipStd (b.dev x) * stdEI _ = ex at *
  generalize clipStd (b.dev z) * stdEI _ = ez at *
  rw [mul_assoc]
  refine h1.trans (mul_le_mul_of_nonneg_left ?_ (by linarith))
  -- `ez ≤ (cz / cx) * ex + 2 * η * cz`
  have h3 : ez ≤ ex / cx * cz + 2 * η * cz := by
    rw [neg_div, neg_div] at hle
    have h4 : ez / cz ≤ ex / cx + 2 * η := by linarith
    rw [div_le_iff₀ pz] at h4
    linarith
  have h5 : ex / cx * cz ≤ ex / lo * hi :=
    mul_le_mul (div_le_div_of_nonneg_left ex0 hlo hcx.1) hcz.2 pz.le (div_nonneg ex0 hlo.le)
  have h6 : 2 * η * cz ≤ 2 * η * hi := mul_le_mul_of_nonneg_left hcz.2 (by linarith)
  have hhi : 0 < hi := by linarith
  have h7 : hi / lo * (ex + 2 * (η * lo)) = ex / lo * hi + 2 * η * hi := by
    field_simp
  have h8 := mul_le_mul_of_nonneg_left (show ex + 2 * (η * lo) ≤ max (b.fmin - jitter - b.std (F x)) 0 +
    (w + 1 / 2) * clipStd (b.dev x) + 2 * (η * lo) by linarith) (div_pos hhi hlo).le
  linarith

/-- **C185**, a run: as `C183_ei_run`, for expected improvement per cost. The costs in the domain are between `lo` and `hi`, and may
differ from iteration to iteration. The ratio of the costs multiplies the bound. -/
theorem C185_run {config : List Desc} {sp : Space} (h : designSpace config none = .ok sp) (hb : sp.hasBandit = false)
    (hs : ∀ k ∈ kindsOf config, Samplable k) (hvar : kindsOf config ≠ []) (hk : AllCont (kindsOf config))
    (ev : Evaluator) (hev : ∀ n, ev ≠ .thompson n) (deDup : Bool) (hgev : GoodEvaluator deDup ev)
    (w η jitter : ℝ) (hw : 0 ≤ w) (hj : 0 ≤ jitter) (hη : 0 ≤ η) (lo hi : ℝ) (hlo : 0 < lo)
    (cost : BOState → Vec → ℝ) (hcost : ∀ t x, ObjDomain (kindsOf config) x → lo ≤ cost t x ∧ cost t x ≤ hi)
    (δ : BOState → ℝ) (b : BOState → Belief) (F : Vec → ℚ)
    (hcal : ∀ t, t.Y = some (t.X.map F) → t.X ≠ [] → Trusted (kindsOf config) F w (δ t) t.X (b t))
    (envs : BOState → EvalEnv) (henvs : ∀ t, GoodEnv (envs t)) (hlp : ∀ t k, GoodAcq ((envs t).acqLP k))
    (hns : ∀ t n, ev = .random n → n - 1 ≤ (envs t).numSamplesRandom)
    (hf : ∀ t, NearlyOrders (2 * η) (firstEnv ev (envs t)).f fun x =>
      eiAcquisition jitter (b t).fmin ((b t).mean x) ((b t).dev x) 1 (cost t x))
    (hlogic : ∀ t, (envs t).op.anchorLogic = "max_objective")
    (hzero : (∃ n, ev = .random n) → deDup = true → ∀ x, ObjDomain (kindsOf config) x → ∃ v ∈ x, v ≠ 0) (env : BOEnv)
    (hsug : env.suggest = stdSuggest sp ev envs deDup) (hobj : env.obj = some fun _ x => .ok (F x))
    (a : RunArgs) (hg : ValidContext sp a.context)
    (hopt : ∀ t c, contextManager sp a.context = .ok c → ∀ k,
      Descends ((firstEnv ev (envs t)).oracle.acq.opt k) c.noncontextBounds)
    (fuel : Nat) (s s' : BOState) (why : Stop) (hX : ∀ x ∈ s.X, ObjDomain (kindsOf config) x)
    (hY : s.Y = none ∨ s.Y = some (s.X.map F)) (hrun : runOptimization env a fuel s = (s', .done why))
    (x0 : Vec) (hx0 : x0 ∈ s.X) :
    ∃ (r : Results) (σ : Nat → BOState) (B : Nat → Mat) (x : Nat → Vec) (Z : Nat → Mat), s'.results = some r ∧
      BatchIterates F 0 a.context s.X s' σ B ∧
      (∀ k < s'.numAcq, (B k).head? = some (x k) ∧ Sampled config sp a.context (firstEnv ev (envs (σ k))).oracle.acq.design
        (envs (σ k)).op.numSamplesObjective (Z k)) ∧
      ∀ q : ℚ, (∀ k < s'.numAcq, ∃ z ∈ Z k, F z ≤ q) →
        s'.numAcq * ((r.fxOpt : ℝ) - q) ≤
          ∑ k ∈ Finset.range s'.numAcq, (b (σ k)).scale * (jitter + (1 + improvementRatio w * (hi / lo)) * (w * δ (σ k))) +
          improvementRatio w * (hi / lo) * ((F x0 - r.fxOpt) + ∑ k ∈ Finset.range s'.numAcq,
            (b (σ k)).scale * ((w + 1 / 2) * clipStd ((b (σ k)).dev (x k)) + 2 * (η * lo))) := by
  have hfirst : ∀ t, GoodAcq (firstEnv ev (envs t)).oracle.acq := by
    intro t
    cases ev with
    | localPenalization n => exact hlp t 0
    | sequential => exact (henvs t).acq
    | random n => exact (henvs t).acq
    | thompson n => exact (henvs t).acq
  obtain ⟨r, σ, B, x, Z, r1, r2, r3, r4⟩ := run_batches (ks := kindsOf config) (F := F) (env := env)
    (P := fun t x Z => Sampled config sp a.context (firstEnv ev (envs t)).oracle.acq.design (envs t).op.numSamplesObjective Z ∧
      Trusted (kindsOf config) F w (δ t) t.X (b t) ∧
      ∀ z ∈ Z, z ∈ t.X ∨ (b t).fmin - jitter - (b t).std (F z) ≤ improvementRatio w * (hi / lo) *
          (max ((b t).fmin - jitter - (b t).std (F x)) 0 + (w + 1 / 2) * clipStd ((b t).dev x) + 2 * (η * lo))) hobj a
    (fun t m t1 t2 t3 t4 => by
      rw [hsug] at t4
      unfold stdSuggest at t4
      rw [t1] at t4
      refine ⟨fun y hy => (suggestions_in_domain h hb hs hvar hg (henvs t) (hlp t) hgev (hns t) t4 y hy).1, ?_⟩
      obtain ⟨x, rest, Z, e1, e2, e3, -, e4⟩ := least_first h hb hs hvar hk a.context hg ev hev (envs t) (henvs t).op (hfirst t)
        (hlogic t) (hopt t) deDup hzero t.X m t4
      refine ⟨x, rest, Z, e1, e3, hcal t t2 t3, fun z hz => ?_⟩
      obtain ⟨hz1, hz2⟩ := e4 z hz
      refine hz2.imp id fun ⟨u, v, hu, hv, huv⟩ => ?_
      exact costly_step hw hη (hcal t t2 t3) e2 hz1 hlo (hcost t x e2) (hcost t z hz1) (hf t _ _ _ _ hu hv huv))
    (List.ne_nil_of_mem hx0) hX hY hrun
  refine ⟨r, σ, B, x, Z, r1, r3, fun k hk => ⟨(r4 k hk).1, (r4 k hk).2.2.1⟩, fun q hq => ?_⟩
  obtain ⟨b1, b2, b3⟩ := batches_best r3 (fun k hk => (r4 k hk).1) r2 hx0
  refine improvement_total (costRatio_ge hw hlo (hcost s x0 (hX x0 hx0))) hw hj (mul_nonneg hη hlo.le) b1 b2 b3 (fun k hk => ⟨(r4 k hk).2.1, (r4 k hk).2.2.2.1⟩) fun k hk => ?_
  obtain ⟨z, hz, hzq⟩ := hq k hk
  exact ⟨z, hzq, (r4 k hk).2.2.2.2 z hz⟩

/-- **C185** (negation without a bound on the costs): however small the expected improvement at one location is, and however large
at another, a large enough cost makes the first preferred. -/
theorem C185_costs_counterexample (jitter fmin m s m' s' : ℝ) :
    ∃ c, 1 ≤ c ∧ ∀ c' ≥ c, eiAcquisition jitter fmin m s 1 1 < eiAcquisition jitter fmin m' s' 1 c' := by
  have hz : eiAcquisition jitter fmin m s 1 1 < 0 := by
    rw [eiAcquisition_std]
    exact neg_neg_of_pos (mul_pos (clipStd_pos _) (stdEI_pos _))
  set A := eiAcquisition jitter fmin m s 1 1 with hA
  set B := eiAcquisition jitter fmin m' s' 1 1 with hB
  refine ⟨max 1 (B / A + 1), le_max_left _ _, fun c' hc' => ?_⟩
  have h1 : 0 < c' := one_pos.trans_le ((le_max_left _ _).trans hc')
  have h2 : B / A < c' := by
    have := (le_max_right _ _).trans hc'
    linarith
  have h3 : eiAcquisition jitter fmin m' s' 1 c' = B / c' := by simp [hB, eiAcquisition, weightedAcq]
  rw [h3, lt_div_iff₀ h1, mul_comm]
  rwa [div_lt_iff_of_neg hz] at h2

/-! ## An example: Lipschitz bounds -/

/-- A cost that is twice as high at one as at zero. -/
noncomputable def exTwice (x : Vec) : ℝ := 1 + (x.headD 0 : ℚ)

noncomputable def exCostlyEnvs (t : BOState) : EvalEnv :=
  { exEnv with
    f := fun x => .ok (nearRat (1 / 1000)
      (eiAcquisition (1 / 100) (exBelief t).fmin ((exBelief t).mean x) ((exBelief t).dev x) 1 (exTwice x)))
    oracle := ⟨exStay, exAcq⟩ }

noncomputable def exCostlyBO (n : Nat) (sp : Space) : BOEnv :=
  { exSearch sp with
    obj := some fun _ x => .ok (exValley x)
    suggest := stdSuggest sp (.random n) exCostlyEnvs false }

/-- The hypotheses of `C185_run` are met by search with Lipschitz bounds and batches of two. -/
example {sp : Space} (h : designSpace exUnitLine none = .ok sp) (a : RunArgs) (ha : a.context = none) (fuel : Nat)
    (s' : BOState) (why : Stop) (hrun : runOptimization (exCostlyBO 2 sp) a fuel (boInit [[0]] none .none) = (s', .done why)) :
    ∃ (r : Results) (σ : Nat → BOState) (B : Nat → Mat) (x : Nat → Vec) (Z : Nat → Mat), s'.results = some r ∧
      BatchIterates exValley 0 a.context [[0]] s' σ B ∧
      ∀ q : ℚ, (∀ k < s'.numAcq, ∃ z ∈ Z k, exValley z ≤ q) →
        s'.numAcq * ((r.fxOpt : ℝ) - q) ≤
          ∑ k ∈ Finset.range s'.numAcq, (exBelief (σ k)).scale * (1 / 100 + (1 + improvementRatio 1 * (2 / 1)) * (1 * 0)) +
          improvementRatio 1 * (2 / 1) * ((exValley [0] - r.fxOpt) + ∑ k ∈ Finset.range s'.numAcq,
            (exBelief (σ k)).scale * ((1 + 1 / 2) * clipStd ((exBelief (σ k)).dev (x k)) + 2 * (1 / 1000 * 1))) := by
  have hk : kindsOf exUnitLine = [.continuous 0 1] := by decide +kernel
  have hb : sp.hasBandit = false := by
    have : (designSpace exUnitLine none).map Space.hasBandit = .ok false := by decide +kernel
    rw [h] at this
    simpa [Except.map] using this
  obtain ⟨r, σ, B, x, Z, h1, h2, -, h4⟩ := C185_run h hb (by rw [hk]; simp [Samplable]) (by rw [hk]; simp)
    (by rw [hk]; intro k hk; exact ⟨0, 1, by simpa using hk⟩) (.random 2) (by simp) false (by simp [GoodEvaluator])
    1 (1 / 1000) (1 / 100) zero_le_one (by norm_num) (by norm_num) 1 2 one_pos (fun _ => exTwice)
    (fun _ x hx => by
      rw [hk] at hx
      obtain ⟨u, rfl⟩ : ∃ u, x = [u] := by
        have := hx.length_eq
        match x, this with
        | [u], _ => exact ⟨u, rfl⟩
      have hu : 0 ≤ u ∧ u ≤ 1 := by simpa [ObjDomain, ValidObj] using hx
      have h1 : (0 : ℝ) ≤ u := by exact_mod_cast hu.1
      have h2 : (u : ℝ) ≤ 1 := by exact_mod_cast hu.2
      simp only [exTwice, List.headD_cons]
      constructor <;> linarith) (fun _ => 0) exBelief exValley
    (fun t ht hne => by rw [hk]; exact exBelief_trusted t ht hne) exCostlyEnvs
    (fun _ => ⟨⟨by simp [exCostlyEnvs, exEnv], by simp [exCostlyEnvs, exEnv], by simp [exCostlyEnvs, exEnv]⟩, exStay_good, exAcq_good,
      by simp [exCostlyEnvs, exEnv], by simp [exCostlyEnvs, exEnv]⟩)
    (fun _ _ => exAcq_good) (fun t n hn => by cases hn; simp [exCostlyEnvs, exEnv])
    (fun t => nearlyOrders_of_near fun x v hv => by
      simp only [firstEnv, exCostlyEnvs, Except.ok.injEq] at hv
      subst hv
      rw [abs_sub_comm]
      exact (nearRat_spec (by norm_num) _).le) (fun _ => rfl) (by simp) (exCostlyBO 2 sp) rfl rfl a
    (by simp [ValidContext, ha]) (fun t c _ k => exStay_descends k _) fuel _ s' why (by
      rw [hk]
      simp [boInit, ObjDomain, ValidObj]) (.inl rfl) hrun [0] (by simp [boInit])
  exact ⟨r, σ, B, x, Z, h1, h2, h4⟩

end GPyOpt.Props
