import Verif.Props.RegretMPI
import Verif.Props.RegretEIConstraints

/-!
# C182: search by the probability of improvement with constraints
-/

namespace GPyOpt.Props

open GPyOpt Spec

/-- The acquisition `MPI` without the weights of constraints and costs (`MPI.py:32-40`), up to `η`, and positive. -/
def PositiveMPI (η jitter : ℝ) (b : Belief) (acq : Vec → Py ℚ) : Prop :=
  ∀ x v, acq x = .ok v → 0 < v ∧ |(v : ℝ) - mpiValue jitter b.fmin (b.mean x) (b.dev x)| ≤ η

/-- **C182**, a run: acquisition `MPI`, suggestions one at a time, continuous variables with constraints, no context, with or
without de-duplication, feasible initial locations, and a model whose intervals contain the objective where the constraints are
met. The objective is evaluated at feasible locations only, and the alternative of `C176_run` holds against the samples, which
are feasible. -/
theorem C182_run {config : List Desc} {cs : List ConstrDict} {sp : Space} (h : designSpace config (some cs) = .ok sp)
    (hb : sp.hasBandit = false) (hs : ∀ k ∈ kindsOf config, Samplable k) (hvar : kindsOf config ≠ [])
    (hk : AllCont (kindsOf config))
    (w w' η jitter : ℝ) (hw : 0 ≤ w) (hj : 0 ≤ jitter) (hη : 2 * η < ncdf (-w) - ncdf (-w')) (δ : BOState → ℝ)
    (b : BOState → Belief) (F : Vec → ℚ)
    (hcal : ∀ t, t.Y = some (t.X.map F) → t.X ≠ [] → FeasibleTrusted cs (kindsOf config) F w (δ t) t.X (b t))
    (acq : BOState → Vec → Py ℚ) (hacq : ∀ t, PositiveMPI η jitter (b t) (acq t))
    (envs : BOState → EvalEnv) (henvs : ∀ t, GoodEnv (envs t))
    (hf : ∀ t, (envs t).f = acquisitionFunction sp (acq t) fun _ => .ok 1)
    (hlogic : ∀ t, (envs t).op.anchorLogic = "max_objective") (deDup : Bool) (env : BOEnv)
    (hsug : env.suggest = stdSuggest sp .sequential envs deDup) (hobj : env.obj = some fun _ x => .ok (F x))
    (a : RunArgs) (ha : a.context = none)
    (hopt : ∀ t c, contextManager sp none = .ok c → ∀ k, Descends ((envs t).oracle.acq.opt k) c.noncontextBounds)
    (fuel : Nat) (s s' : BOState) (why : Stop) (hX : ∀ x ∈ s.X, ObjDomain (kindsOf config) x ∧ Feasible cs x)
    (hY : s.Y = none ∨ s.Y = some (s.X.map F)) (hrun : runOptimization env a fuel s = (s', .done why))
    (x0 : Vec) (hx0 : x0 ∈ s.X) :
    (∀ x ∈ s'.X, Feasible cs x) ∧
    ∃ (r : Results) (σ : Nat → BOState) (x : Nat → Vec) (Z : Nat → Mat), s'.results = some r ∧ Feasible cs r.xOpt ∧
      Iterates F none s.X.length s' σ x ∧
      (∀ k < s'.numAcq, Sampled config sp none (envs (σ k)).oracle.acq.design (envs (σ k)).op.numSamplesObjective (Z k) ∧
        ∀ z ∈ Z k, Feasible cs z) ∧
      ∀ q : ℚ, (∀ k < s'.numAcq, ∃ z ∈ Z k, F z ≤ q) →
        (∃ k < s'.numAcq, (r.fxOpt : ℝ) ≤ q + (b (σ k)).scale * (jitter + w * δ (σ k))) ∨
        (∑ k ∈ Finset.range s'.numAcq, max 0 ((b (σ k)).scale *
            (jitter - w * δ (σ k) - (w + w') * clipStd ((b (σ k)).dev (x k)))) ≤ F x0 - r.fxOpt ∧
          ∀ σ₀ : ℝ, 0 ≤ σ₀ → (∀ k < s'.numAcq, σ₀ ≤ (b (σ k)).scale) →
            (((Finset.range s'.numAcq).filter fun k =>
              w * δ (σ k) + (w + w') * clipStd ((b (σ k)).dev (x k)) ≤ jitter / 2).card : ℝ) * (σ₀ * (jitter / 2))
              ≤ F x0 - r.fxOpt) := by
  have hone : ∀ (x : Vec) (v : ℚ), (fun _ => Except.ok 1 : Vec → Py ℚ) x = .ok v → 0 < v := by
    intro x v hv
    simp only [Except.ok.injEq] at hv
    rw [← hv]
    exact one_pos
  obtain ⟨hfeas, r0, hr0, hr1⟩ := C178_feasible h hb hs hvar hk acq (fun _ _ => .ok 1) (fun _ => hone)
    (fun t x v hv => (hacq t x v hv).1) envs henvs hf hlogic deDup env hsug a ha hopt fuel s s' why (fun x hx => (hX x hx).2) hrun
  have hne : s.X ≠ [] := List.ne_nil_of_mem hx0
  obtain ⟨r, σ, x, Z, r1, r2, r3, r4, r5⟩ := run_suggestions (ks := kindsOf config) (F := F) (env := env)
    (P := fun t x Z => Sampled config sp none (envs t).oracle.acq.design (envs t).op.numSamplesObjective Z ∧
      (∀ z ∈ Z, Feasible cs z) ∧ Feasible cs x ∧
      ((∀ y ∈ t.X, Feasible cs y) → Trusted (kindsOf config) F w (δ t) t.X ((b t).within cs F) ∧
      ∀ z ∈ Z, z ∉ t.X → ((b t).within cs F).std (F z) ≤ ((b t).within cs F).fmin - jitter →
        ((b t).within cs F).std (F x) ≤ ((b t).within cs F).fmin - jitter
          + (w + w') * clipStd (((b t).within cs F).dev x))) hobj a
    (fun t m hm => by
      rw [hsug] at hm
      exact computeNext_one hm)
    (fun t x t1 t2 t3 t4 => by
      rw [hsug] at t4
      unfold stdSuggest at t4
      rw [t1, ha] at t4
      obtain ⟨x', Z, e1, e2, e3, e4, ⟨z0, hz0, hzd0⟩, e5⟩ := constrained_suggestion h hb hs hvar hk (by simp [ValidContext])
        (henvs t) (hlogic t) (hopt t) hone (hf t) t4
      simp only [List.cons.injEq, and_true] at e1
      subst e1
      have hZf := e4 rfl
      obtain ⟨u0, v0, g1, -, g3⟩ := e5 z0 hz0 hzd0 (hZf z0 hz0)
      have hfx := (g3 (hacq t z0 u0 g1).1).1
      refine ⟨e2, Z, e3, hZf, hfx, fun hXf => ?_⟩
      have htr := (hcal t t2 t3).within hXf
      refine ⟨htr, fun z hz hzX hzf => ?_⟩
      obtain ⟨_, _, _, Y, _, _, _, _, _, _, hZ⟩ := id e3
      obtain ⟨y, -, hzd, -⟩ := forall₂_mem_right hZ hz
      obtain ⟨u, v, k1, k2, k3⟩ := e5 z hz (fun _ => hzX) (hZf z hz)
      obtain ⟨-, u', v', k4, k5, k6⟩ := k3 (hacq t z u k1).1
      simp only [Except.ok.injEq] at k2 k5
      subst k2 k5
      rw [div_one, div_one] at k6
      refine probability_step hw hη htr e2 hzd ?_ hzf
      obtain ⟨m1, m2⟩ := within_feasible (F := F) (b := b t) hfx
      obtain ⟨m3, m4⟩ := within_feasible (F := F) (b := b t) (hZf z hz)
      rw [m1, m2, m3, m4]
      have n1 := (abs_le.1 (hacq t z u k1).2).1
      have n2 := (abs_le.1 (hacq t x u' k4).2).2
      have n3 : (u : ℝ) ≤ u' := by exact_mod_cast k6
      show mpiAcquisition jitter (b t).fmin _ _ 1 1 ≤ mpiAcquisition jitter (b t).fmin _ _ 1 1 + 2 * η
      simp only [mpiAcquisition, weightedAcq, mul_one, div_one]
      linarith) hne (fun x hx => (hX x hx).1) hY hrun
  rw [hr0] at r1
  cases r1
  rw [ha] at r4
  refine ⟨hfeas, r0, σ, x, Z, hr0, hr1, r4, fun k hk => ⟨(r5 k hk).2.2.2.1, (r5 k hk).2.2.2.2.1⟩, fun q hq => ?_⟩
  have hσ : ∀ k < s'.numAcq, ∀ y ∈ (σ k).X, Feasible cs y := fun k hk y hy =>
    hfeas y (List.mem_of_mem_take ((r4 k hk).2.2.1 ▸ hy))
  have key := jitter_sum (w' := w') (b := fun t => (b t).within cs F) (δ := δ) hw hj hx0 r2 r3 r4
    (fun k hk => ⟨(r5 k hk).1, ((r5 k hk).2.2.2.2.2.2 (hσ k hk)).1⟩) (q := q) fun k hk => by
      obtain ⟨z, hz, hzq⟩ := hq k hk
      exact ⟨z, hzq, ((r5 k hk).2.2.2.2.2.2 (hσ k hk)).2 z hz⟩
  have hdev : ∀ k ∈ Finset.range s'.numAcq, ((b (σ k)).within cs F).dev (x k) = (b (σ k)).dev (x k) := fun k hk =>
    (within_feasible (r5 k (Finset.mem_range.1 hk)).2.2.2.2.2.1).2
  refine key.imp id fun ⟨h1, h2⟩ => ⟨le_trans (le_of_eq ?_) h1, fun σ₀ h3 h4 => le_trans (le_of_eq ?_) (h2 σ₀ h3 h4)⟩
  · refine Finset.sum_congr rfl fun k hk => ?_
    rw [hdev k hk]
    rfl
  · congr 3
    refine Finset.filter_congr fun k hk => ?_
    rw [hdev k hk]

/-! ## An example: Lipschitz bounds -/

/-- A rational number above a real one, by less than `ε`. -/
noncomputable def aboveRatBy (ε y : ℝ) : ℚ :=
  open Classical in if h : y < y + ε then (exists_rat_btwn h).choose else 0

theorem aboveRatBy_spec {ε : ℝ} (hε : 0 < ε) (y : ℝ) : y < aboveRatBy ε y ∧ (aboveRatBy ε y : ℝ) < y + ε := by
  have h : y < y + ε := by linarith
  unfold aboveRatBy
  rw [dif_pos h]
  exact (exists_rat_btwn h).choose_spec

noncomputable def exAboveMPI (t : BOState) (x : Vec) : Py ℚ :=
  .ok (aboveRatBy exError (mpiValue (1 / 100) (exBelief t).fmin ((exBelief t).mean x) ((exBelief t).dev x)))

theorem exAboveMPI_positive (t : BOState) : PositiveMPI exError (1 / 100) (exBelief t) (exAboveMPI t) := by
  intro x v hv
  simp only [exAboveMPI, Except.ok.injEq] at hv
  subst hv
  obtain ⟨h1, h2⟩ := aboveRatBy_spec exError_pos (mpiValue (1 / 100) (exBelief t).fmin ((exBelief t).mean x) ((exBelief t).dev x))
  have h3 : 0 < mpiValue (1 / 100) (exBelief t).fmin ((exBelief t).mean x) ((exBelief t).dev x) := by
    exact ncdf_pos _
  refine ⟨?_, ?_⟩
  · have := h3.trans h1
    exact_mod_cast this
  · rw [abs_le]
    constructor <;> linarith

noncomputable def exFeasibleMPIEnvs (sp : Space) (t : BOState) : EvalEnv :=
  { exEnv with
    f := acquisitionFunction sp (exAboveMPI t) fun _ => .ok 1
    oracle := ⟨exStay, exAcq⟩ }

noncomputable def exFeasibleMPIBO (sp : Space) : BOEnv :=
  { exSearch sp with
    obj := some fun _ x => .ok (exValley x)
    suggest := stdSuggest sp .sequential (exFeasibleMPIEnvs sp) true }

/-- The hypotheses of `C182_run` are met by search with Lipschitz bounds, with the constraint `x ≤ 1/2`. -/
example {sp : Space} (h : designSpace exUnitLine (some exLowerHalf) = .ok sp) (a : RunArgs) (ha : a.context = none) (fuel : Nat)
    (s' : BOState) (why : Stop) (hrun : runOptimization (exFeasibleMPIBO sp) a fuel (boInit [[0]] none .none) = (s', .done why)) :
    ∃ (r : Results) (σ : Nat → BOState) (x : Nat → Vec) (Z : Nat → Mat), s'.results = some r ∧ Feasible exLowerHalf r.xOpt ∧
      Iterates exValley none 1 s' σ x ∧
      ∀ q : ℚ, (∀ k < s'.numAcq, ∃ z ∈ Z k, exValley z ≤ q) →
        JitterBound 1 2 (1 / 100) (fun _ => 0) exBelief σ x s'.numAcq q (exValley [0]) r.fxOpt := by
  have hk : kindsOf exUnitLine = [.continuous 0 1] := by decide +kernel
  have hb : sp.hasBandit = false := by
    have : (designSpace exUnitLine (some exLowerHalf)).map Space.hasBandit = .ok false := by decide +kernel
    rw [h] at this
    simpa [Except.map] using this
  obtain ⟨-, r, σ, x, Z, h1, h2, h3, -, h5⟩ := C182_run h hb (by rw [hk]; simp [Samplable]) (by rw [hk]; simp)
    (by rw [hk]; intro k hk; exact ⟨0, 1, by simpa using hk⟩) 1 2 exError (1 / 100) zero_le_one (by norm_num)
    (by have := exError_pos; unfold exError at this ⊢; linarith)
    (fun _ => 0) exBelief exValley
    (fun t ht hne => by
      rw [hk]
      obtain ⟨e1, e2, e3, e4, e5⟩ := exBelief_trusted t ht hne
      exact ⟨e1, fun x hx _ => e2 x hx, e3, e4, e5⟩) exAboveMPI exAboveMPI_positive (exFeasibleMPIEnvs sp)
    (fun _ => ⟨⟨by simp [exFeasibleMPIEnvs, exEnv], by simp [exFeasibleMPIEnvs, exEnv], by simp [exFeasibleMPIEnvs, exEnv]⟩,
      exStay_good, exAcq_good, by simp [exFeasibleMPIEnvs, exEnv], by simp [exFeasibleMPIEnvs, exEnv]⟩) (fun _ => rfl)
    (fun _ => by simp [exFeasibleMPIEnvs, exEnv]) true (exFeasibleMPIBO sp) rfl rfl a ha
    (fun _ c _ k => exStay_descends k _) fuel _ s' why (by
      rw [hk]
      intro x hx
      simp only [boInit, List.mem_singleton] at hx
      subst hx
      refine ⟨by simp [ObjDomain, ValidObj], ?_⟩
      intro c hc
      rw [exLowerHalf, List.mem_singleton] at hc
      subst hc
      exact ⟨_, -1/2, rfl, by decide +kernel, by norm_num⟩) (.inl rfl) hrun [0] (by simp [boInit])
  exact ⟨r, σ, x, Z, h1, h2, h3, fun q hq => (h5 q hq).imp id fun h => h.1⟩

end GPyOpt.Props
