import Verif.Props.RegretEI
import Verif.Props.RegretConstraints

/-!
# C181: search by expected improvement with constraints
-/

namespace GPyOpt.Props

open GPyOpt Spec

/-- As `Trusted`, where the constraints are met. -/
structure FeasibleTrusted (cs : List ConstrDict) (ks : List Kind) (F : Vec → ℚ) (w δ : ℝ) (X : Mat) (b : Belief) : Prop where
  scale : 0 < b.scale
  covers : ∀ x, ObjDomain ks x → Feasible cs x → |b.std (F x) - b.mean x| ≤ w * b.dev x
  incumbent : ∃ x ∈ X, b.fmin = b.mean x
  least : ∀ x ∈ X, b.fmin ≤ b.mean x
  sure : ∀ x ∈ X, b.dev x ≤ δ

/-- The acquisition `EI` without the weights of constraints and costs (`EI.py:32-40`), up to `η`, and positive. -/
def PositiveEI (η jitter : ℝ) (b : Belief) (acq : Vec → Py ℚ) : Prop :=
  ∀ x v, acq x = .ok v → 0 < v ∧ |(v : ℝ) - eiValue jitter b.fmin (b.mean x) (b.dev x)| ≤ η

open Classical in
/-- The belief, with the objective where the constraints are violated. -/
noncomputable def Belief.within (cs : List ConstrDict) (F : Vec → ℚ) (b : Belief) : Belief :=
  { b with
    mean := fun x => if Feasible cs x then b.mean x else b.std (F x)
    dev := fun x => if Feasible cs x then b.dev x else 0 }

open Classical in
theorem FeasibleTrusted.within {cs : List ConstrDict} {ks : List Kind} {F : Vec → ℚ} {w δ : ℝ} {X : Mat} {b : Belief}
    (h : FeasibleTrusted cs ks F w δ X b) (hX : ∀ x ∈ X, Feasible cs x) : Trusted ks F w δ X (b.within cs F) where
  scale := h.scale
  covers := fun x hx => by
    show |b.std (F x) - (b.within cs F).mean x| ≤ w * (b.within cs F).dev x
    unfold Belief.within
    dsimp only
    split_ifs with hf
    · exact h.covers x hx hf
    · simp
  incumbent := by
    obtain ⟨x, hx, he⟩ := h.incumbent
    refine ⟨x, hx, ?_⟩
    show b.fmin = if Feasible cs x then b.mean x else b.std (F x)
    rw [if_pos (hX x hx)]
    exact he
  least := fun x hx => by
    show b.fmin ≤ if Feasible cs x then b.mean x else b.std (F x)
    rw [if_pos (hX x hx)]
    exact h.least x hx
  sure := fun x hx => by
    show (if Feasible cs x then b.dev x else 0) ≤ δ
    rw [if_pos (hX x hx)]
    exact h.sure x hx

theorem within_feasible {cs : List ConstrDict} {F : Vec → ℚ} {b : Belief} {x : Vec} (hx : Feasible cs x) :
    (b.within cs F).mean x = b.mean x ∧ (b.within cs F).dev x = b.dev x := by
  simp [Belief.within, hx]

/-- **C181**, a run: acquisition `EI`, suggestions one at a time, continuous variables with constraints, no context, with or
without de-duplication, feasible initial locations, and a model whose intervals contain the objective where the constraints are
met. The objective is evaluated at feasible locations only, and the bound of `C172_run` holds against the samples, which are
feasible. -/
theorem C181_run {config : List Desc} {cs : List ConstrDict} {sp : Space} (h : designSpace config (some cs) = .ok sp)
    (hb : sp.hasBandit = false) (hs : ∀ k ∈ kindsOf config, Samplable k) (hvar : kindsOf config ≠ [])
    (hk : AllCont (kindsOf config))
    (w η jitter : ℝ) (hw : 0 ≤ w) (hj : 0 ≤ jitter) (hη : 0 ≤ η) (δ : BOState → ℝ) (b : BOState → Belief) (F : Vec → ℚ)
    (hcal : ∀ t, t.Y = some (t.X.map F) → t.X ≠ [] → FeasibleTrusted cs (kindsOf config) F w (δ t) t.X (b t))
    (acq : BOState → Vec → Py ℚ) (hacq : ∀ t, PositiveEI η jitter (b t) (acq t))
    (envs : BOState → EvalEnv) (henvs : ∀ t, GoodEnv (envs t))
    (hf : ∀ t, (envs t).f = acquisitionFunction sp (acq t) fun _ => .ok 1)
    (hlogic : ∀ t, (envs t).op.anchorLogic = "max_objective") (deDup : Bool) (env : BOEnv)
    (hsug : env.suggest = stdSuggest sp .sequential envs deDup) (hobj : env.obj = some fun _ x => .ok (F x))
    (a : RunArgs) (ha : a.context = none)
    (hopt : ∀ t c, contextManager sp none = .ok c → ∀ k, Descends ((envs t).oracle.acq.opt k) c.noncontextBounds)
    (fuel : Nat) (s s' : BOState) (why : Stop) (hX : ∀ x ∈ s.X, ObjDomain (kindsOf config) x ∧ Feasible cs x)
    (hY : s.Y = none ∨ s.Y = some (s.X.map F)) (hrun : runOptimization env a fuel s = (s', .done why))
    (x0 : Vec) (hx0 : x0 ∈ s.X) :
    (∀ x ∈ s'.X, Feasible cs x) ∧
    ∃ (r : Results) (σ : Nat → BOState) (x : Nat → Vec) (Z : Nat → Mat), s'.results = some r ∧ Feasible cs r.xOpt ∧
      Iterates F none s.X.length s' σ x ∧
      (∀ k < s'.numAcq, Sampled config sp none (envs (σ k)).oracle.acq.design (envs (σ k)).op.numSamplesObjective (Z k) ∧
        ∀ z ∈ Z k, Feasible cs z) ∧
      ∀ q : ℚ, (∀ k < s'.numAcq, ∃ z ∈ Z k, F z ≤ q) →
        s'.numAcq * ((r.fxOpt : ℝ) - q) ≤
          ∑ k ∈ Finset.range s'.numAcq, (b (σ k)).scale * (jitter + (1 + improvementRatio w) * (w * δ (σ k))) +
          improvementRatio w * ((F x0 - r.fxOpt) + ∑ k ∈ Finset.range s'.numAcq,
            (b (σ k)).scale * ((w + 1 / 2) * clipStd ((b (σ k)).dev (x k)) + 2 * η)) := by
  have hone : ∀ (x : Vec) (v : ℚ), (fun _ => Except.ok 1 : Vec → Py ℚ) x = .ok v → 0 < v := by
    intro x v hv
    simp only [Except.ok.injEq] at hv
    rw [← hv]
    exact one_pos
  obtain ⟨hfeas, r0, hr0, hr1⟩ := C178_feasible h hb hs hvar hk acq (fun _ _ => .ok 1) (fun _ => hone)
    (fun t x v hv => (hacq t x v hv).1) envs henvs hf hlogic deDup env hsug a ha hopt fuel s s' why (fun x hx => (hX x hx).2) hrun
  have hne : s.X ≠ [] := List.ne_nil_of_mem hx0
  obtain ⟨r, σ, x, Z, r1, r2, r3, r4, r5⟩ := run_suggestions (ks := kindsOf config) (F := F) (env := env)
    (P := fun t x Z => Sampled config sp none (envs t).oracle.acq.design (envs t).op.numSamplesObjective Z ∧
      (∀ z ∈ Z, Feasible cs z) ∧ Feasible cs x ∧
      ((∀ y ∈ t.X, Feasible cs y) → Trusted (kindsOf config) F w (δ t) t.X ((b t).within cs F) ∧
      ∀ z ∈ Z, z ∈ t.X ∨ ((b t).within cs F).fmin - jitter - ((b t).within cs F).std (F z) ≤ improvementRatio w *
          (max (((b t).within cs F).fmin - jitter - ((b t).within cs F).std (F x)) 0
            + (w + 1 / 2) * clipStd (((b t).within cs F).dev x) + 2 * η))) hobj a
    (fun t m hm => by
      rw [hsug] at hm
      exact computeNext_one hm)
    (fun t x t1 t2 t3 t4 => by
      rw [hsug] at t4
      unfold stdSuggest at t4
      rw [t1, ha] at t4
      obtain ⟨x', Z, e1, e2, e3, e4, ⟨z0, hz0, hzd0⟩, e5⟩ := constrained_suggestion h hb hs hvar hk (by simp [ValidContext])
        (henvs t) (hlogic t) (hopt t) hone (hf t) t4
      simp only [List.cons.injEq, and_true] at e1
      subst e1
      have hZf := e4 rfl
      obtain ⟨u0, v0, g1, -, g3⟩ := e5 z0 hz0 hzd0 (hZf z0 hz0)
      have hfx := (g3 (hacq t z0 u0 g1).1).1
      refine ⟨e2, Z, e3, hZf, hfx, fun hXf => ?_⟩
      have htr := (hcal t t2 t3).within hXf
      refine ⟨htr, fun z hz => ?_⟩
      by_cases hzX : z ∈ t.X
      · exact .inl hzX
      right
      obtain ⟨_, _, _, Y, _, _, _, _, _, _, hZ⟩ := id e3
      obtain ⟨y, -, hzd, -⟩ := forall₂_mem_right hZ hz
      obtain ⟨u, v, k1, k2, k3⟩ := e5 z hz (fun _ => hzX) (hZf z hz)
      obtain ⟨-, u', v', k4, k5, k6⟩ := k3 (hacq t z u k1).1
      simp only [Except.ok.injEq] at k2 k5
      subst k2 k5
      rw [div_one, div_one] at k6
      refine improvement_step hw htr e2 hzd ?_
      obtain ⟨m1, m2⟩ := within_feasible (F := F) (b := b t) hfx
      obtain ⟨m3, m4⟩ := within_feasible (F := F) (b := b t) (hZf z hz)
      rw [m1, m2, m3, m4]
      have n1 := (abs_le.1 (hacq t z u k1).2).1
      have n2 := (abs_le.1 (hacq t x u' k4).2).2
      have n3 : (u : ℝ) ≤ u' := by exact_mod_cast k6
      show eiAcquisition jitter (b t).fmin _ _ 1 1 ≤ eiAcquisition jitter (b t).fmin _ _ 1 1 + 2 * η
      simp only [eiAcquisition, weightedAcq, mul_one, div_one]
      linarith) hne (fun x hx => (hX x hx).1) hY hrun
  rw [hr0] at r1
  cases r1
  rw [ha] at r4
  refine ⟨hfeas, r0, σ, x, Z, hr0, hr1, r4, fun k hk => ⟨(r5 k hk).2.2.2.1, (r5 k hk).2.2.2.2.1⟩, fun q hq => ?_⟩
  have hσ : ∀ k < s'.numAcq, ∀ y ∈ (σ k).X, Feasible cs y := fun k hk y hy =>
    hfeas y (List.mem_of_mem_take ((r4 k hk).2.2.1 ▸ hy))
  have key := improvement_sum (b := fun t => (b t).within cs F) (δ := δ) hw hj hη hx0 r2 r3 r4
    (fun k hk => ⟨(r5 k hk).1, ((r5 k hk).2.2.2.2.2.2 (hσ k hk)).1⟩) (q := q) fun k hk => by
      obtain ⟨z, hz, hzq⟩ := hq k hk
      exact ⟨z, hzq, ((r5 k hk).2.2.2.2.2.2 (hσ k hk)).2 z hz⟩
  refine key.trans_eq ?_
  congr 3
  refine Finset.sum_congr rfl fun k hk => ?_
  rw [(within_feasible (r5 k (Finset.mem_range.1 hk)).2.2.2.2.2.1).2]
  rfl

/-! ## Acquisitions of zero -/

def exZeroBO (sp : Space) : BOEnv :=
  { exSearch sp with
    obj := some fun _ x => .ok (exSlope x)
    suggest := stdSuggest sp .sequential (fun _ => { exEnv with
      f := acquisitionFunction sp (fun _ => .ok 0) fun _ => .ok 1
      oracle := ⟨{ exAcq with opt := fun _ => exJump }, exAcq⟩ }) false }

/-- **C181** (negation for an acquisition that is not positive): expected improvement that is rounded to zero does not tell feasible
locations from others. The local optimizer does not leave the bounds or get worse, and the location `1`, which violates the
constraint `x ≤ 1/2`, is evaluated and reported. -/
theorem C181_zero_counterexample :
    ((designSpace exUnitLine (some exLowerHalf)).map fun sp =>
      let r := runOptimization (exZeroBO sp) { maxIter := some (.fin 1) } 10 (boInit [[0], [1/4]] none .none)
      (r.2, r.1.X, r.1.results.map Results.xOpt)) = .ok (.done .limit, [[0], [1/4], [1]], some [1]) ∧
    ¬ Feasible exLowerHalf [1] ∧
    ∀ (sp : Space) (c : Ctx), designSpace exUnitLine (some exLowerHalf) = .ok sp → contextManager sp none = .ok c →
      Descends exJump c.noncontextBounds := by
  refine ⟨by decide +kernel, C178_positive_counterexample.2.2.1, fun sp c h hc => ?_⟩
  have hb : sp.hasBandit = false := by
    have : (designSpace exUnitLine (some exLowerHalf)).map Space.hasBandit = .ok false := by decide +kernel
    rw [h] at this
    simpa [Except.map] using this
  exact exJump_unit h hb hc

/-! ## An example: Lipschitz bounds -/

/-- A rational number slightly above a real one. -/
noncomputable def aboveRat (y : ℝ) : ℚ := (exists_rat_btwn (show y < y + 1 / 1000 by linarith)).choose

theorem aboveRat_spec (y : ℝ) : y < aboveRat y ∧ (aboveRat y : ℝ) < y + 1 / 1000 :=
  (exists_rat_btwn (show y < y + 1 / 1000 by linarith)).choose_spec

noncomputable def exAboveEI (t : BOState) (x : Vec) : Py ℚ :=
  .ok (aboveRat (eiValue (1 / 100) (exBelief t).fmin ((exBelief t).mean x) ((exBelief t).dev x)))

theorem exAboveEI_positive (t : BOState) : PositiveEI (1 / 1000) (1 / 100) (exBelief t) (exAboveEI t) := by
  intro x v hv
  simp only [exAboveEI, Except.ok.injEq] at hv
  subst hv
  obtain ⟨h1, h2⟩ := aboveRat_spec (eiValue (1 / 100) (exBelief t).fmin ((exBelief t).mean x) ((exBelief t).dev x))
  have h3 : 0 < eiValue (1 / 100) (exBelief t).fmin ((exBelief t).mean x) ((exBelief t).dev x) := by
    rw [eiValue_std]
    exact mul_pos (clipStd_pos _) (stdEI_pos _)
  refine ⟨?_, ?_⟩
  · have := h3.trans h1
    exact_mod_cast this
  · rw [abs_le]
    constructor <;> linarith

noncomputable def exFeasibleEIEnvs (sp : Space) (t : BOState) : EvalEnv :=
  { exEnv with
    f := acquisitionFunction sp (exAboveEI t) fun _ => .ok 1
    oracle := ⟨exStay, exAcq⟩ }

noncomputable def exFeasibleEIBO (sp : Space) : BOEnv :=
  { exSearch sp with
    obj := some fun _ x => .ok (exValley x)
    suggest := stdSuggest sp .sequential (exFeasibleEIEnvs sp) true }

/-- The hypotheses of `C181_run` are met by search with Lipschitz bounds, with the constraint `x ≤ 1/2`. -/
example {sp : Space} (h : designSpace exUnitLine (some exLowerHalf) = .ok sp) (a : RunArgs) (ha : a.context = none) (fuel : Nat)
    (s' : BOState) (why : Stop) (hrun : runOptimization (exFeasibleEIBO sp) a fuel (boInit [[0]] none .none) = (s', .done why)) :
    ∃ (r : Results) (σ : Nat → BOState) (x : Nat → Vec) (Z : Nat → Mat), s'.results = some r ∧ Feasible exLowerHalf r.xOpt ∧
      Iterates exValley none 1 s' σ x ∧
      ∀ q : ℚ, (∀ k < s'.numAcq, ∃ z ∈ Z k, exValley z ≤ q) →
        s'.numAcq * ((r.fxOpt : ℝ) - q) ≤
          ∑ k ∈ Finset.range s'.numAcq, (exBelief (σ k)).scale * (1 / 100 + (1 + improvementRatio 1) * (1 * 0)) +
          improvementRatio 1 * ((exValley [0] - r.fxOpt) + ∑ k ∈ Finset.range s'.numAcq,
            (exBelief (σ k)).scale * ((1 + 1 / 2) * clipStd ((exBelief (σ k)).dev (x k)) + 2 * (1 / 1000))) := by
  have hk : kindsOf exUnitLine = [.continuous 0 1] := by decide +kernel
  have hb : sp.hasBandit = false := by
    have : (designSpace exUnitLine (some exLowerHalf)).map Space.hasBandit = .ok false := by decide +kernel
    rw [h] at this
    simpa [Except.map] using this
  obtain ⟨-, r, σ, x, Z, h1, h2, h3, -, h5⟩ := C181_run h hb (by rw [hk]; simp [Samplable]) (by rw [hk]; simp)
    (by rw [hk]; intro k hk; exact ⟨0, 1, by simpa using hk⟩) 1 (1 / 1000) (1 / 100) zero_le_one (by norm_num) (by norm_num)
    (fun _ => 0) exBelief exValley
    (fun t ht hne => by
      rw [hk]
      obtain ⟨e1, e2, e3, e4, e5⟩ := exBelief_trusted t ht hne
      exact ⟨e1, fun x hx _ => e2 x hx, e3, e4, e5⟩) exAboveEI exAboveEI_positive (exFeasibleEIEnvs sp)
    (fun _ => ⟨⟨by simp [exFeasibleEIEnvs, exEnv], by simp [exFeasibleEIEnvs, exEnv], by simp [exFeasibleEIEnvs, exEnv]⟩,
      exStay_good, exAcq_good, by simp [exFeasibleEIEnvs, exEnv], by simp [exFeasibleEIEnvs, exEnv]⟩) (fun _ => rfl)
    (fun _ => by simp [exFeasibleEIEnvs, exEnv]) true (exFeasibleEIBO sp) rfl rfl a ha
    (fun _ c _ k => exStay_descends k _) fuel _ s' why (by
      rw [hk]
      intro x hx
      simp only [boInit, List.mem_singleton] at hx
      subst hx
      refine ⟨by simp [ObjDomain, ValidObj], ?_⟩
      intro c hc
      rw [exLowerHalf, List.mem_singleton] at hc
      subst hc
      exact ⟨_, -1/2, rfl, by decide +kernel, by norm_num⟩) (.inl rfl) hrun [0] (by simp [boInit])
  exact ⟨r, σ, x, Z, h1, h2, h3, h5⟩

end GPyOpt.Props
