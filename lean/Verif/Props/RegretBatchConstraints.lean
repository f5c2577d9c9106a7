import Verif.Props.RegretBatchEI
import Verif.Props.PenalizedFeasible
import Verif.Props.RegretEIConstraints

/-!
# C187: batches by expected improvement and the probability of improvement with constraints

The acquisition is weighted by the indicator of the constraints (`GPyOpt/acquisitions/base.py:33-40`), so that the first location of a
batch is feasible and as good as every sample. Nothing is claimed of the constraints at the remaining locations of the batch.
-/

namespace GPyOpt.Props

open GPyOpt Spec

/-- The values of `f` order the locations that meet the constraints as those of `g` do, up to `ε`. -/
def FeasiblyOrders (cs : List ConstrDict) (ks : List Kind) (ε : ℝ) (f : Vec → Py ℚ) (g : Vec → ℝ) : Prop :=
  ∀ x z v v', ObjDomain ks x → ObjDomain ks z → Feasible cs x → Feasible cs z → f x = .ok v → f z = .ok v' → v ≤ v' → g x ≤ g z + ε

theorem first_good {envs : BOState → EvalEnv} (henvs : ∀ t, GoodEnv (envs t)) (hlp : ∀ t k, GoodAcq ((envs t).acqLP k))
    (ev : Evaluator) (t : BOState) : GoodAcq (firstEnv ev (envs t)).oracle.acq := by
  cases ev with
  | localPenalization n => exact hlp t 0
  | sequential => exact (henvs t).acq
  | random n => exact (henvs t).acq
  | thompson n => exact (henvs t).acq

/-- The first location of a batch is feasible and at least as good as the samples, which are feasible. -/
theorem feasible_first {config : List Desc} {cs : List ConstrDict} {sp : Space} (h : designSpace config (some cs) = .ok sp)
    (hb : sp.hasBandit = false) (hs : ∀ k ∈ kindsOf config, Samplable k) (hvar : kindsOf config ≠ [])
    (hk : AllCont (kindsOf config)) (ev : Evaluator) (hev : ∀ n, ev ≠ .thompson n) (env : EvalEnv)
    (hop : GoodOptions env.op) (hacq : GoodAcq (firstEnv ev env).oracle.acq)
    (hlogic : env.op.anchorLogic = "max_objective")
    (hopt : ∀ c, contextManager sp none = .ok c → ∀ k, Descends ((firstEnv ev env).oracle.acq.opt k) c.noncontextBounds)
    (hsep : Separates cs (kindsOf config) (firstEnv ev env).f) (deDup : Bool)
    (hdd : deDup = false ∨ ∃ n, ev = .localPenalization n) (X m : Mat)
    (hm : computeNext ev env sp none deDup X none none = .ok m) :
    ∃ x rest Z, m = x :: rest ∧ ObjDomain (kindsOf config) x ∧
      Sampled config sp none (firstEnv ev env).oracle.acq.design env.op.numSamplesObjective Z ∧ Feasible cs x ∧
      (∀ z ∈ Z, Feasible cs z) ∧
      ∀ z ∈ Z, ObjDomain (kindsOf config) z ∧
        ∃ u v : ℚ, (firstEnv ev env).f x = .ok u ∧ (firstEnv ev env).f z = .ok v ∧ u ≤ v := by
  have hm' : computeNext ev env sp none false [] none none = .ok m := by
    rcases hdd with rfl | ⟨n, rfl⟩
    · exact hm
    · exact hm
  obtain ⟨x, rest, Z, e1, e2, e3, e4, e5⟩ := least_first h hb hs hvar hk none (by simp [ValidContext]) ev hev env hop hacq hlogic
    hopt false (by simp) [] m hm'
  have hZ := sampled_feasible h hs hacq.unit e3
  have key : ∀ z ∈ Z, ObjDomain (kindsOf config) z ∧
      ∃ u v : ℚ, (firstEnv ev env).f x = .ok u ∧ (firstEnv ev env).f z = .ok v ∧ u ≤ v := fun z hz =>
    ⟨(e5 z hz).1, (e5 z hz).2.resolve_left (by simp)⟩
  refine ⟨x, rest, Z, e1, e2, e3, ?_, hZ, key⟩
  by_contra hx
  obtain ⟨z, hz⟩ := List.exists_mem_of_ne_nil Z e4
  obtain ⟨hzd, u, v, hu, hv, huv⟩ := key z hz
  have := hsep x z u v e2 hzd hx (hZ z hz) hu hv
  linarith

/-- **C187** for the acquisition `EI`, a run: as `C183_ei_run`, with constraints, no context, and an acquisition that separates the
feasible locations from the others. Batches are computed by local penalization, or without de-duplication at random or one at a
time. The first location of every batch is feasible, and the bound holds against the samples, which are feasible. The best value
`r.fxOpt` is the best of all evaluated locations, and the remaining locations of a batch need not be feasible. -/
theorem C187_ei_run {config : List Desc} {cs : List ConstrDict} {sp : Space} (h : designSpace config (some cs) = .ok sp)
    (hb : sp.hasBandit = false) (hs : ∀ k ∈ kindsOf config, Samplable k) (hvar : kindsOf config ≠ [])
    (hk : AllCont (kindsOf config))
    (ev : Evaluator) (hev : ∀ n, ev ≠ .thompson n) (deDup : Bool)
    (hdd : deDup = false ∨ ∃ n, ev = .localPenalization n) (hgev : GoodEvaluator deDup ev)
    (w η jitter : ℝ) (hw : 0 ≤ w) (hj : 0 ≤ jitter) (hη : 0 ≤ η) (δ : BOState → ℝ) (b : BOState → Belief) (F : Vec → ℚ)
    (hcal : ∀ t, t.Y = some (t.X.map F) → t.X ≠ [] → Trusted (kindsOf config) F w (δ t) t.X (b t))
    (envs : BOState → EvalEnv) (henvs : ∀ t, GoodEnv (envs t)) (hlp : ∀ t k, GoodAcq ((envs t).acqLP k))
    (hns : ∀ t n, ev = .random n → n - 1 ≤ (envs t).numSamplesRandom)
    (hf : ∀ t, FeasiblyOrders cs (kindsOf config) (2 * η) (firstEnv ev (envs t)).f fun x =>
      eiAcquisition jitter (b t).fmin ((b t).mean x) ((b t).dev x) 1 1)
    (hsep : ∀ t, Separates cs (kindsOf config) (firstEnv ev (envs t)).f)
    (hlogic : ∀ t, (envs t).op.anchorLogic = "max_objective")
    (env : BOEnv)
    (hsug : env.suggest = stdSuggest sp ev envs deDup) (hobj : env.obj = some fun _ x => .ok (F x))
    (a : RunArgs) (ha : a.context = none)
    (hopt : ∀ t c, contextManager sp none = .ok c → ∀ k,
      Descends ((firstEnv ev (envs t)).oracle.acq.opt k) c.noncontextBounds)
    (fuel : Nat) (s s' : BOState) (why : Stop) (hX : ∀ x ∈ s.X, ObjDomain (kindsOf config) x)
    (hY : s.Y = none ∨ s.Y = some (s.X.map F)) (hrun : runOptimization env a fuel s = (s', .done why))
    (x0 : Vec) (hx0 : x0 ∈ s.X) :
    ∃ (r : Results) (σ : Nat → BOState) (B : Nat → Mat) (x : Nat → Vec) (Z : Nat → Mat), s'.results = some r ∧
      BatchIterates F 0 none s.X s' σ B ∧
      (∀ k < s'.numAcq, (B k).head? = some (x k) ∧ Sampled config sp none (firstEnv ev (envs (σ k))).oracle.acq.design
        (envs (σ k)).op.numSamplesObjective (Z k) ∧ Feasible cs (x k) ∧ ∀ z ∈ Z k, Feasible cs z) ∧
      ∀ q : ℚ, (∀ k < s'.numAcq, ∃ z ∈ Z k, F z ≤ q) →
        s'.numAcq * ((r.fxOpt : ℝ) - q) ≤
          ∑ k ∈ Finset.range s'.numAcq, (b (σ k)).scale * (jitter + (1 + improvementRatio w) * (w * δ (σ k))) +
          improvementRatio w * ((F x0 - r.fxOpt) + ∑ k ∈ Finset.range s'.numAcq,
            (b (σ k)).scale * ((w + 1 / 2) * clipStd ((b (σ k)).dev (x k)) + 2 * η)) := by
  have hfirst := first_good henvs hlp ev
  obtain ⟨r, σ, B, x, Z, r1, r2, r3, r4⟩ := run_batches (ks := kindsOf config) (F := F) (env := env)
    (P := fun t x Z => Sampled config sp none (firstEnv ev (envs t)).oracle.acq.design (envs t).op.numSamplesObjective Z ∧
      Feasible cs x ∧ (∀ z ∈ Z, Feasible cs z) ∧ Trusted (kindsOf config) F w (δ t) t.X (b t) ∧
      ∀ z ∈ Z, z ∈ t.X ∨ (b t).fmin - jitter - (b t).std (F z) ≤ improvementRatio w *
          (max ((b t).fmin - jitter - (b t).std (F x)) 0 + (w + 1 / 2) * clipStd ((b t).dev x) + 2 * η)) hobj a
    (fun t m t1 t2 t3 t4 => by
      rw [hsug] at t4
      unfold stdSuggest at t4
      rw [t1, ha] at t4
      refine ⟨fun y hy => (suggestions_in_domain h hb hs hvar (by simp [ValidContext]) (henvs t) (hlp t) hgev (hns t) t4 y hy).1, ?_⟩
      obtain ⟨x, rest, Z, e1, e2, e3, e4, e5, e6⟩ := feasible_first h hb hs hvar hk ev hev (envs t) (henvs t).op (hfirst t)
        (hlogic t) (hopt t) (hsep t) deDup hdd t.X m t4
      refine ⟨x, rest, Z, e1, e3, e4, e5, hcal t t2 t3, fun z hz => .inr ?_⟩
      obtain ⟨hz1, u, v, hu, hv, huv⟩ := e6 z hz
      exact improvement_step hw (hcal t t2 t3) e2 hz1 (hf t _ _ _ _ e2 hz1 e4 (e5 z hz) hu hv huv))
    (List.ne_nil_of_mem hx0) hX hY hrun
  rw [ha] at r3
  refine ⟨r, σ, B, x, Z, r1, r3, fun k hk => ⟨(r4 k hk).1, (r4 k hk).2.2.1, (r4 k hk).2.2.2.1, (r4 k hk).2.2.2.2.1⟩, fun q hq => ?_⟩
  obtain ⟨b1, b2, b3⟩ := batches_best r3 (fun k hk => (r4 k hk).1) r2 hx0
  refine improvement_total (improvementRatio_ge hw) hw hj hη b1 b2 b3 (fun k hk => ⟨(r4 k hk).2.1, (r4 k hk).2.2.2.2.2.1⟩) fun k hk => ?_
  obtain ⟨z, hz, hzq⟩ := hq k hk
  exact ⟨z, hzq, (r4 k hk).2.2.2.2.2.2 z hz⟩

/-- **C187** for the acquisition `MPI`: as `C187_ei_run`, with the alternative of `C176_run`. -/
theorem C187_mpi_run {config : List Desc} {cs : List ConstrDict} {sp : Space} (h : designSpace config (some cs) = .ok sp)
    (hb : sp.hasBandit = false) (hs : ∀ k ∈ kindsOf config, Samplable k) (hvar : kindsOf config ≠ [])
    (hk : AllCont (kindsOf config))
    (ev : Evaluator) (hev : ∀ n, ev ≠ .thompson n) (deDup : Bool)
    (hdd : deDup = false ∨ ∃ n, ev = .localPenalization n) (hgev : GoodEvaluator deDup ev)
    (w w' η jitter : ℝ) (hw : 0 ≤ w) (hj : 0 ≤ jitter) (hη : 2 * η < ncdf (-w) - ncdf (-w')) (δ : BOState → ℝ)
    (b : BOState → Belief) (F : Vec → ℚ)
    (hcal : ∀ t, t.Y = some (t.X.map F) → t.X ≠ [] → Trusted (kindsOf config) F w (δ t) t.X (b t))
    (envs : BOState → EvalEnv) (henvs : ∀ t, GoodEnv (envs t)) (hlp : ∀ t k, GoodAcq ((envs t).acqLP k))
    (hns : ∀ t n, ev = .random n → n - 1 ≤ (envs t).numSamplesRandom)
    (hf : ∀ t, FeasiblyOrders cs (kindsOf config) (2 * η) (firstEnv ev (envs t)).f fun x =>
      mpiAcquisition jitter (b t).fmin ((b t).mean x) ((b t).dev x) 1 1)
    (hsep : ∀ t, Separates cs (kindsOf config) (firstEnv ev (envs t)).f)
    (hlogic : ∀ t, (envs t).op.anchorLogic = "max_objective")
    (env : BOEnv)
    (hsug : env.suggest = stdSuggest sp ev envs deDup) (hobj : env.obj = some fun _ x => .ok (F x))
    (a : RunArgs) (ha : a.context = none)
    (hopt : ∀ t c, contextManager sp none = .ok c → ∀ k,
      Descends ((firstEnv ev (envs t)).oracle.acq.opt k) c.noncontextBounds)
    (fuel : Nat) (s s' : BOState) (why : Stop) (hX : ∀ x ∈ s.X, ObjDomain (kindsOf config) x)
    (hY : s.Y = none ∨ s.Y = some (s.X.map F)) (hrun : runOptimization env a fuel s = (s', .done why))
    (x0 : Vec) (hx0 : x0 ∈ s.X) :
    ∃ (r : Results) (σ : Nat → BOState) (B : Nat → Mat) (x : Nat → Vec) (Z : Nat → Mat), s'.results = some r ∧
      BatchIterates F 0 none s.X s' σ B ∧
      (∀ k < s'.numAcq, (B k).head? = some (x k) ∧ Sampled config sp none (firstEnv ev (envs (σ k))).oracle.acq.design
        (envs (σ k)).op.numSamplesObjective (Z k) ∧ Feasible cs (x k) ∧ ∀ z ∈ Z k, Feasible cs z) ∧
      ∀ q : ℚ, (∀ k < s'.numAcq, ∃ z ∈ Z k, F z ≤ q) →
        (∃ k < s'.numAcq, (r.fxOpt : ℝ) ≤ q + (b (σ k)).scale * (jitter + w * δ (σ k))) ∨
        (∑ k ∈ Finset.range s'.numAcq, max 0 ((b (σ k)).scale *
            (jitter - w * δ (σ k) - (w + w') * clipStd ((b (σ k)).dev (x k)))) ≤ F x0 - r.fxOpt ∧
          ∀ σ₀ : ℝ, 0 ≤ σ₀ → (∀ k < s'.numAcq, σ₀ ≤ (b (σ k)).scale) →
            (((Finset.range s'.numAcq).filter fun k =>
              w * δ (σ k) + (w + w') * clipStd ((b (σ k)).dev (x k)) ≤ jitter / 2).card : ℝ) * (σ₀ * (jitter / 2))
              ≤ F x0 - r.fxOpt) := by
  have hfirst := first_good henvs hlp ev
  obtain ⟨r, σ, B, x, Z, r1, r2, r3, r4⟩ := run_batches (ks := kindsOf config) (F := F) (env := env)
    (P := fun t x Z => Sampled config sp none (firstEnv ev (envs t)).oracle.acq.design (envs t).op.numSamplesObjective Z ∧
      Feasible cs x ∧ (∀ z ∈ Z, Feasible cs z) ∧ Trusted (kindsOf config) F w (δ t) t.X (b t) ∧
      ∀ z ∈ Z, z ∉ t.X → (b t).std (F z) ≤ (b t).fmin - jitter →
        (b t).std (F x) ≤ (b t).fmin - jitter + (w + w') * clipStd ((b t).dev x)) hobj a
    (fun t m t1 t2 t3 t4 => by
      rw [hsug] at t4
      unfold stdSuggest at t4
      rw [t1, ha] at t4
      refine ⟨fun y hy => (suggestions_in_domain h hb hs hvar (by simp [ValidContext]) (henvs t) (hlp t) hgev (hns t) t4 y hy).1, ?_⟩
      obtain ⟨x, rest, Z, e1, e2, e3, e4, e5, e6⟩ := feasible_first h hb hs hvar hk ev hev (envs t) (henvs t).op (hfirst t)
        (hlogic t) (hopt t) (hsep t) deDup hdd t.X m t4
      refine ⟨x, rest, Z, e1, e3, e4, e5, hcal t t2 t3, fun z hz _ hzf => ?_⟩
      obtain ⟨hz1, u, v, hu, hv, huv⟩ := e6 z hz
      exact probability_step hw hη (hcal t t2 t3) e2 hz1 (hf t _ _ _ _ e2 hz1 e4 (e5 z hz) hu hv huv) hzf)
    (List.ne_nil_of_mem hx0) hX hY hrun
  rw [ha] at r3
  refine ⟨r, σ, B, x, Z, r1, r3, fun k hk => ⟨(r4 k hk).1, (r4 k hk).2.2.1, (r4 k hk).2.2.2.1, (r4 k hk).2.2.2.2.1⟩, fun q hq => ?_⟩
  obtain ⟨b1, b2, b3⟩ := batches_best r3 (fun k hk => (r4 k hk).1) r2 hx0
  refine jitter_total hw hj b1 b2 b3 (fun k hk => ⟨(r4 k hk).2.1, (r4 k hk).2.2.2.2.2.1⟩) fun k hk => ?_
  obtain ⟨z, hz, hzq⟩ := hq k hk
  exact ⟨z, hzq, (r4 k hk).2.2.2.2.2.2 z hz⟩

/-! ## An example: Lipschitz bounds -/

/-- An acquisition that is not transformed. -/
theorem feasiblyOrders_plain {config : List Desc} {cs : List ConstrDict} {sp : Space} (h : designSpace config (some cs) = .ok sp)
    (hb : sp.hasBandit = false) (hs : ∀ k ∈ kindsOf config, Samplable k) (hk : AllCont (kindsOf config)) {acq : Vec → Py ℚ}
    {g : Vec → ℝ} {η : ℝ} (hacq : ∀ x v, acq x = .ok v → |(v : ℝ) - g x| ≤ η) :
    FeasiblyOrders cs (kindsOf config) (2 * η) (acquisitionFunction sp acq fun _ => .ok 1) fun x => -g x := by
  have hne := fun k hk => samplable_nonEmpty (hs k hk)
  have val : ∀ x v, ObjDomain (kindsOf config) x → Feasible cs x → acquisitionFunction sp acq (fun _ => .ok 1) x = .ok v →
      |(v : ℝ) - -g x| ≤ η := by
    intro x v hx hxf hv
    have e1 := encodeRow_cont hk hx.length_eq
    obtain ⟨p, q, hp, hq, h1⟩ := C75_constraint_coordinates_partial h hb hne (noSingle_cont hk) acq _ x hx v (by rw [e1]; exact hv)
    rw [e1] at hp
    simp only [Except.ok.injEq] at hq
    subst hq
    rcases h1 with ⟨-, rfl⟩ | ⟨h1, -⟩
    · have := hacq x p hp
      rw [abs_sub_comm] at this
      simpa [sub_eq_add_neg, add_comm] using this
    · exact absurd hxf h1
  intro x z v v' hx hz hxf hzf hv hv' hle
  have h1 := (abs_le.1 (val x v hx hxf hv)).1
  have h2 := (abs_le.1 (val z v' hz hzf hv')).2
  have h3 : (v : ℝ) ≤ v' := by exact_mod_cast hle
  linarith

/-- Batches of `n`, completed at random. -/
noncomputable def exFeasibleBatchBO (n : Nat) (sp : Space) : BOEnv :=
  { exSearch sp with
    obj := some fun _ x => .ok (exValley x)
    suggest := stdSuggest sp (.random n) (exFeasibleEIEnvs sp) false }

/-- The hypotheses of `C187_ei_run` are met by search with Lipschitz bounds and batches of two, with the constraint `x ≤ 1/2`. -/
example {sp : Space} (h : designSpace exUnitLine (some exLowerHalf) = .ok sp) (a : RunArgs) (ha : a.context = none) (fuel : Nat)
    (s' : BOState) (why : Stop)
    (hrun : runOptimization (exFeasibleBatchBO 2 sp) a fuel (boInit [[0]] none .none) = (s', .done why)) :
    ∃ (r : Results) (σ : Nat → BOState) (B : Nat → Mat) (x : Nat → Vec) (Z : Nat → Mat), s'.results = some r ∧
      BatchIterates exValley 0 none [[0]] s' σ B ∧ (∀ k < s'.numAcq, Feasible exLowerHalf (x k)) ∧
      ∀ q : ℚ, (∀ k < s'.numAcq, ∃ z ∈ Z k, exValley z ≤ q) →
        s'.numAcq * ((r.fxOpt : ℝ) - q) ≤
          ∑ k ∈ Finset.range s'.numAcq, (exBelief (σ k)).scale * (1 / 100 + (1 + improvementRatio 1) * (1 * 0)) +
          improvementRatio 1 * ((exValley [0] - r.fxOpt) + ∑ k ∈ Finset.range s'.numAcq,
            (exBelief (σ k)).scale * ((1 + 1 / 2) * clipStd ((exBelief (σ k)).dev (x k)) + 2 * (1 / 1000))) := by
  have hk : kindsOf exUnitLine = [.continuous 0 1] := by decide +kernel
  have hb : sp.hasBandit = false := by
    have : (designSpace exUnitLine (some exLowerHalf)).map Space.hasBandit = .ok false := by decide +kernel
    rw [h] at this
    simpa [Except.map] using this
  have hs : ∀ k ∈ kindsOf exUnitLine, Samplable k := by rw [hk]; simp [Samplable]
  have hc : AllCont (kindsOf exUnitLine) := by rw [hk]; intro k hk; exact ⟨0, 1, by simpa using hk⟩
  obtain ⟨r, σ, B, x, Z, h1, h2, h3, h4⟩ := C187_ei_run h hb hs (by rw [hk]; simp) hc (.random 2) (by simp) false (.inl rfl)
    (by simp [GoodEvaluator]) 1 (1 / 1000) (1 / 100) zero_le_one (by norm_num) (by norm_num) (fun _ => 0) exBelief exValley
    (fun t ht hne => by rw [hk]; exact exBelief_trusted t ht hne) (exFeasibleEIEnvs sp)
    (fun _ => ⟨⟨by simp [exFeasibleEIEnvs, exEnv], by simp [exFeasibleEIEnvs, exEnv], by simp [exFeasibleEIEnvs, exEnv]⟩,
      exStay_good, exAcq_good, by simp [exFeasibleEIEnvs, exEnv], by simp [exFeasibleEIEnvs, exEnv]⟩)
    (fun _ _ => exAcq_good) (fun t n hn => by cases hn; simp [exFeasibleEIEnvs, exEnv])
    (fun t => by
      have := feasiblyOrders_plain h hb hs hc (fun x v hv => (exAboveEI_positive t x v hv).2)
      simpa [eiAcquisition, weightedAcq, firstEnv, exFeasibleEIEnvs] using this)
    (fun t => separates_plain (acq := exAboveEI t) (cost := fun _ => .ok 1) h hb hs hc
      (fun x v hv => (exAboveEI_positive t x v hv).1) (fun x v hv => by
        simp only [Except.ok.injEq] at hv
        rw [← hv]
        exact one_pos))
    (fun _ => by simp [exFeasibleEIEnvs, exEnv]) (exFeasibleBatchBO 2 sp) rfl rfl a ha (fun _ c _ k => exStay_descends k _) fuel _
    s' why (by rw [hk]; simp [boInit, ObjDomain, ValidObj]) (.inl rfl) hrun [0] (by simp [boInit])
  exact ⟨r, σ, B, x, Z, h1, h2, fun k hk => (h3 k hk).2.2.1, h4⟩

end GPyOpt.Props
