import Verif.Props.Regret
import Verif.Props.Constraints

/-!
# C178: search with constraints

The acquisition is multiplied by the indicator of the constraints (`acquisitions/base.py:33-40`), so that it is zero where they
are violated. This keeps the search in the feasible set as long as the acquisition of a sample is positive.
-/

namespace GPyOpt.Props

open GPyOpt Spec

theorem noSingle_cont {ks : List Kind} (hk : AllCont ks) : NoSingleCategory ks := by
  intro k hk' labels hl
  obtain ⟨lo, hi, h⟩ := hk k hk'
  rw [h] at hl
  cases hl

/-- Without a context all samples are feasible. -/
theorem sampled_feasible {config : List Desc} {cs : List ConstrDict} {sp : Space} (h : designSpace config (some cs) = .ok sp)
    (hs : ∀ k ∈ kindsOf config, Samplable k) {o : DesignOracle} (ho : UnitOracle o) {n : Nat} {Z : Mat}
    (hZ : Sampled config sp none o n Z) : ∀ z ∈ Z, Feasible cs z := by
  have hkk := space_kinds_eq h
  obtain ⟨c, ds, sp', Y, hc, h1, h2, h3, h4, h5, h6⟩ := hZ
  have hfree : ∀ i, freePos c i = true := by
    intro i
    simp [freePos, contextManager_none hc]
  obtain ⟨_, _, _, _, _, _, hcs⟩ := designSpace_ok h
  rw [hcs] at h1
  rw [keep_true hfree] at h3
  have hY := (C16_constrained_design h1 h2 (by
    rw [← space_kinds_eq h1, h3, hkk]
    exact hs) o ho.draws _ Y h4).2
  intro z hz
  obtain ⟨y, hy, -, -, hyz⟩ := forall₂_mem_right h6 hz
  rw [keep_true hfree] at hyz
  rw [hyz]
  exact (feasible_fixConstr cs y).1 (hY y hy).2

/-- **C178**, one step: the suggestion of the acquisition optimizer for continuous variables with constraints. Without a context
all samples are feasible. If the acquisition is positive at an unknown feasible sample then the suggestion is feasible, and its
acquisition per cost is at least that of the sample. -/
theorem C178_step {config : List Desc} {cs : List ConstrDict} {sp : Space} (h : designSpace config (some cs) = .ok sp)
    (hb : sp.hasBandit = false) (hs : ∀ k ∈ kindsOf config, Samplable k) (hvar : kindsOf config ≠ [])
    (hk : AllCont (kindsOf config)) (context : Option Context) (hg : ValidContext sp context) (c : Ctx)
    (hc : contextManager sp context = .ok c) (dup : Option DupMgr) (op : AcqOptions) (hop : GoodOptions op)
    (hlogic : op.anchorLogic = "max_objective") (o : AcqOracle) (ho : GoodAcq o)
    (hopt : ∀ k, Descends (o.opt k) c.noncontextBounds) (acq cost : Vec → Py ℚ) (hcost : ∀ x v, cost x = .ok v → 0 < v)
    (r : Vec × ℚ) (hr : acqOptimize sp c dup op o (acquisitionFunction sp acq cost) = .ok r) :
    ObjDomain (kindsOf config) r.1 ∧ ∃ Z : Mat, Sampled config sp context o.design op.numSamplesObjective Z ∧
      (context = none → ∀ z ∈ Z, Feasible cs z) ∧ (∃ z ∈ Z, ¬ InDup dup z) ∧
      ∀ z ∈ Z, ¬ InDup dup z → Feasible cs z → ∃ u v, acq z = .ok u ∧ cost z = .ok v ∧ (0 < u →
        Feasible cs r.1 ∧ ∃ u' v', acq r.1 = .ok u' ∧ cost r.1 = .ok v' ∧ u / v ≤ u' / v') := by
  obtain ⟨ds, sp', Y, Z, h1, h2, h3, h4, h5, h6, h7, h8⟩ :=
    as_good_as_design h hb hs hvar hk context hg c hc dup op hop hlogic o ho hopt _ r hr
  have hkk := space_kinds_eq h
  obtain ⟨x, ⟨hx1, hx2, -⟩, -, hx3⟩ := acqOptimize_sound h hb (hkk ▸ hs) (hkk ▸ hvar) hg hc hop ho hr
  rw [encodeRow_cont (hkk ▸ hk) hx2.length_eq] at hx1
  rw [hkk] at hx2
  subst hx1
  have hne := fun k hk => samplable_nonEmpty (hs k hk)
  have hval : ∀ z v, ObjDomain (kindsOf config) z → acquisitionFunction sp acq cost z = .ok v →
      ∃ a c, acq z = .ok a ∧ cost z = .ok c ∧ ((Feasible cs z ∧ v = -a / c) ∨ (¬ Feasible cs z ∧ v = 0)) := by
    intro z v hz hv
    have he := encodeRow_cont hk hz.length_eq
    have := C75_constraint_coordinates_partial h hb hne (noSingle_cont hk) acq cost z hz v (by rw [he]; exact hv)
    rwa [he] at this
  refine ⟨hx2, Z, ⟨c, ds, sp', Y, hc, h1, h2, h3, h4, h5, h6⟩, ?_, h7, fun z hz hd hfz => ?_⟩
  · intro hctx
    subst hctx
    exact sampled_feasible h hs ho.unit ⟨c, ds, sp', Y, hc, h1, h2, h3, h4, h5, h6⟩
  · obtain ⟨v, hv1, hv2⟩ := h8 z hz hd
    obtain ⟨y, -, hy, -⟩ := forall₂_mem_right h6 hz
    obtain ⟨u, p, e1, e2, e3⟩ := hval z v hy hv1
    refine ⟨u, p, e1, e2, fun hu => ?_⟩
    have hp := hcost z p e2
    have hvz : v = -u / p := by
      rcases e3 with ⟨-, e⟩ | ⟨hn, -⟩
      · exact e
      · exact absurd hfz hn
    have hneg : v < 0 := by
      rw [hvz]
      exact div_neg_of_neg_of_pos (by linarith) hp
    obtain ⟨u', p', g1, g2, g3⟩ := hval r.1 r.2 hx2 hx3
    rcases g3 with ⟨g3, g4⟩ | ⟨-, g4⟩
    · refine ⟨g3, u', p', g1, g2, ?_⟩
      rw [g4, hvz, neg_div, neg_div] at hv2
      linarith
    · rw [g4] at hv2
      linarith

theorem constrained_suggestion {config : List Desc} {cs : List ConstrDict} {sp : Space}
    (h : designSpace config (some cs) = .ok sp) (hb : sp.hasBandit = false) (hs : ∀ k ∈ kindsOf config, Samplable k)
    (hvar : kindsOf config ≠ []) (hk : AllCont (kindsOf config)) {context : Option Context} (hg : ValidContext sp context)
    {env : EvalEnv} (henv : GoodEnv env) (hlogic : env.op.anchorLogic = "max_objective")
    (hopt : ∀ c, contextManager sp context = .ok c → ∀ k, Descends (env.oracle.acq.opt k) c.noncontextBounds)
    {acq cost : Vec → Py ℚ} (hcost : ∀ x v, cost x = .ok v → 0 < v) (hf : env.f = acquisitionFunction sp acq cost)
    {deDup : Bool} {X : Mat} {m : Mat} (hm : computeNext .sequential env sp context deDup X none none = .ok m) :
    ∃ x Z, m = [x] ∧ ObjDomain (kindsOf config) x ∧
      Sampled config sp context env.oracle.acq.design env.op.numSamplesObjective Z ∧
      (context = none → ∀ z ∈ Z, Feasible cs z) ∧ (∃ z ∈ Z, deDup = true → z ∉ X) ∧
      ∀ z ∈ Z, (deDup = true → z ∉ X) → Feasible cs z → ∃ u v, acq z = .ok u ∧ cost z = .ok v ∧ (0 < u →
        Feasible cs x ∧ ∃ u' v', acq x = .ok u' ∧ cost x = .ok v' ∧ u / v ≤ u' / v') := by
  obtain ⟨c, b, hc, hbt, hzip⟩ := computeNext_cases hm
  simp only [computeBatch, sequentialBatch] at hbt
  generalize hdup : (if deDup = true then some (dupMgr X none none) else none) = dup at hbt
  have hd : ∀ z, InDup dup z ↔ deDup = true ∧ z ∈ X := by
    intro z
    rw [← hdup]
    constructor
    · rintro ⟨dm, hd1, hd2⟩
      split_ifs at hd1 with hdd
      cases hd1
      exact ⟨hdd, by simpa [dupMgr] using hd2⟩
    · rintro ⟨hdd, hz⟩
      exact ⟨_, if_pos hdd, by simpa [dupMgr] using hz⟩
  cases hx : acqOptimize sp c dup env.op env.oracle.acq env.f with
  | error e => simp [hx] at hbt
  | ok r =>
    obtain ⟨x, v⟩ := r
    simp only [hx, Except.ok.injEq] at hbt
    subst hbt
    rw [hf] at hx
    obtain ⟨h1, Z, h2, h3, ⟨z0, h40, h41⟩, h5⟩ := C178_step h hb hs hvar hk context hg c hc dup env.op henv.op hlogic
      env.oracle.acq henv.acq (hopt c hc) acq cost hcost (x, v) hx
    have hkk := space_kinds_eq h
    have hxe : encodeRow sp.kinds x = x := encodeRow_cont (hkk ▸ hk) (by rw [hkk]; exact h1.length_eq)
    have := zipInputs_encode_all h hb (Z := [x]) (by simp) (by simpa [hkk] using h1)
    simp only [List.map_cons, List.map_nil, hxe] at this
    rw [this] at hzip
    simp only [Except.ok.injEq] at hzip
    refine ⟨x, Z, hzip.symm, h1, h2, h3, ⟨z0, h40, fun hdd hz => h41 ((hd _).2 ⟨hdd, hz⟩)⟩, fun z hz hdz hfz => ?_⟩
    exact h5 z hz (fun hi => hdz ((hd _).1 hi).1 ((hd _).1 hi).2) hfz

/-- **C178**, runs with a positive acquisition (as expected improvement and the probability of improvement): continuous variables
with constraints, no context, suggestions one at a time, with or without costs and de-duplication. If the initial locations are
feasible then the objective is evaluated at feasible locations only, and the reported location is feasible. -/
theorem C178_feasible {config : List Desc} {cs : List ConstrDict} {sp : Space} (h : designSpace config (some cs) = .ok sp)
    (hb : sp.hasBandit = false) (hs : ∀ k ∈ kindsOf config, Samplable k) (hvar : kindsOf config ≠ [])
    (hk : AllCont (kindsOf config)) (acq cost : BOState → Vec → Py ℚ) (hcost : ∀ t x v, cost t x = .ok v → 0 < v)
    (hacq : ∀ t x v, acq t x = .ok v → 0 < v)
    (envs : BOState → EvalEnv) (henvs : ∀ t, GoodEnv (envs t))
    (hf : ∀ t, (envs t).f = acquisitionFunction sp (acq t) (cost t))
    (hlogic : ∀ t, (envs t).op.anchorLogic = "max_objective") (deDup : Bool) (env : BOEnv)
    (hsug : env.suggest = stdSuggest sp .sequential envs deDup) (a : RunArgs) (ha : a.context = none)
    (hopt : ∀ t c, contextManager sp none = .ok c → ∀ k, Descends ((envs t).oracle.acq.opt k) c.noncontextBounds)
    (fuel : Nat) (s s' : BOState) (why : Stop) (hX : ∀ x ∈ s.X, Feasible cs x)
    (hrun : runOptimization env a fuel s = (s', .done why)) :
    (∀ x ∈ s'.X, Feasible cs x) ∧ ∃ r, s'.results = some r ∧ Feasible cs r.xOpt := by
  have key : ∀ x ∈ s'.X, Feasible cs x := by
    obtain ⟨obj, s0, bs, sk, s2, Y, r', ho, hst0, hst, htr, -, hsp, -, -, rfl⟩ := runOptimization_done hrun
    obtain ⟨ps, fs, rfl⟩ := hsp.frame
    show ∀ x ∈ sk.X, Feasible cs x
    have hsug1 : ∀ (t : BOState) (m : Mat), t.context = none → env.suggest t none none = .ok m → ∀ x ∈ m, Feasible cs x := by
      intro t m t1 t2
      rw [hsug] at t2
      unfold stdSuggest at t2
      rw [t1] at t2
      obtain ⟨x, Z, rfl, -, -, h3, ⟨z, hz, hzd⟩, h5⟩ := constrained_suggestion h hb hs hvar hk (by simp [ValidContext]) (henvs t)
        (hlogic t) (hopt t) (hcost t) (hf t) t2
      obtain ⟨u, v, e1, -, e3⟩ := h5 z hz hzd (h3 rfl z hz)
      intro y hy
      rw [List.mem_singleton.1 hy]
      exact (e3 (hacq t z u e1)).1
    have hc0 : s0.context = none := by rw [hst.context, ha]
    have hX0 : ∀ x ∈ s0.X, Feasible cs x := by rw [hst.X]; exact hX
    clear hst hst0 hsp hrun
    induction htr with
    | nil s => exact hX0
    | @cons s s1 s' m ys bs hr hsp ht ih =>
      refine ih (by rw [hsp.context]; exact hc0) ?_
      rw [hsp.X]
      intro x hx
      rcases List.mem_append.1 hx with hx | hx
      · exact hX0 x hx
      · obtain ⟨ps, fs, hfr⟩ := updateModel_frame (env := env) (s := s) (s1 := (updateModel env s).1)
          (r := (updateModel env s).2) (by rfl)
        exact hsug1 _ m (by rw [hfr]; exact hc0) hsp.suggested x hx
  obtain ⟨r, Y, i, r1, -, -, -, r5, -⟩ := C39_reported_optimum _ a fuel s s' _ hrun
  exact ⟨key, r, r1, key _ (List.mem_of_getElem? r5)⟩

/-! ## Confidence bounds -/

/-- The acquisition `LCB` (`LCB.py:35-41`). -/
def confidenceAcq (w : ℚ) (mean dev : Vec → ℚ) (x : Vec) : Py ℚ := .ok (-mean x + w * dev x)

/-- The intervals of the model contain the objective where the constraints are met. -/
def FeasibleCalibrated (cs : List ConstrDict) (ks : List Kind) (F : Vec → ℚ) (w shift scale : ℚ) (mean dev : Vec → ℚ) : Prop :=
  0 < scale ∧ (∀ x, 0 ≤ w * dev x) ∧ ∀ x, ObjDomain ks x → Feasible cs x → |(F x - shift) / scale - mean x| ≤ w * dev x

theorem confidence_constrained {config : List Desc} {cs : List ConstrDict} {sp : Space}
    (h : designSpace config (some cs) = .ok sp) (hb : sp.hasBandit = false) (hs : ∀ k ∈ kindsOf config, Samplable k)
    (hvar : kindsOf config ≠ []) (hk : AllCont (kindsOf config)) {context : Option Context} (hg : ValidContext sp context)
    {env : EvalEnv} (henv : GoodEnv env) (hlogic : env.op.anchorLogic = "max_objective")
    (hopt : ∀ c, contextManager sp context = .ok c → ∀ k, Descends (env.oracle.acq.opt k) c.noncontextBounds)
    {w shift scale : ℚ} {mean dev F : Vec → ℚ}
    (hf : env.f = acquisitionFunction sp (confidenceAcq w mean dev) fun _ => .ok 1)
    (hcal : FeasibleCalibrated cs (kindsOf config) F w shift scale mean dev) {deDup : Bool} {X : Mat} {m : Mat}
    (hm : computeNext .sequential env sp context deDup X none none = .ok m) :
    ∃ x Z, m = [x] ∧ Sampled config sp context env.oracle.acq.design env.op.numSamplesObjective Z ∧
      (context = none → ∀ z ∈ Z, Feasible cs z) ∧
      ∀ z ∈ Z, Feasible cs z → F z < shift → z ∈ X ∨ (Feasible cs x ∧ F x ≤ F z + 2 * w * (scale * dev x)) := by
  obtain ⟨x, Z, h1, h2, h3, h4, -, h5⟩ := constrained_suggestion h hb hs hvar hk hg henv hlogic hopt
    (acq := confidenceAcq w mean dev) (cost := fun _ => .ok 1) (by
      intro x v hv
      simp only [Except.ok.injEq] at hv
      rw [← hv]
      exact one_pos) hf hm
  refine ⟨x, Z, h1, h3, h4, fun z hz hfz hlt => ?_⟩
  by_cases hzX : z ∈ X
  · exact .inl hzX
  right
  obtain ⟨_, _, _, Y, _, _, _, _, _, _, hZ⟩ := h3
  obtain ⟨y, -, hzd, -⟩ := forall₂_mem_right hZ hz
  obtain ⟨u, v, e1, e2, e3⟩ := h5 z hz (fun _ => hzX) hfz
  simp only [confidenceAcq, Except.ok.injEq] at e1 e2
  subst e1 e2
  obtain ⟨hsc, hdev, hcal⟩ := hcal
  have hz1 := (abs_le.1 (hcal z hzd hfz)).1
  have hz2 : (F z - shift) / scale < 0 := div_neg_of_neg_of_pos (by linarith) hsc
  obtain ⟨g1, u', v', g2, g3, g4⟩ := e3 (by linarith)
  simp only [confidenceAcq, Except.ok.injEq] at g2 g3
  subst g2 g3
  refine ⟨g1, ?_⟩
  rw [div_one, div_one] at g4
  have hx1 := (abs_le.1 (hcal x h2 g1)).2
  have h3 : (F x - shift) / scale ≤ (F z - shift) / scale + 2 * w * dev x := by linarith
  have h4 := mul_le_mul_of_nonneg_right h3 hsc.le
  rw [add_mul, div_mul_cancel₀ _ hsc.ne', div_mul_cancel₀ _ hsc.ne'] at h4
  linarith

/-- **C178**, search by confidence bounds (C148) with constraints: the model has to contain the objective only where the
constraints are met. In an iteration with a feasible unknown sample that is better than the number `shift` which normalization
subtracts, the suggestion is feasible, and exceeds no such sample by more than `2 * w * dev`. If one of the outputs so far is
at most `shift`, as it is with normalization, then the reported value exceeds the value of no feasible sample by more than
`2 * w * dev`; if every iteration has a feasible sample of at most `q` and such an output, the average of the widths bounds the
excess over `q`. -/
theorem C178_search {config : List Desc} {cs : List ConstrDict} {sp : Space} (h : designSpace config (some cs) = .ok sp)
    (hb : sp.hasBandit = false) (hs : ∀ k ∈ kindsOf config, Samplable k) (hvar : kindsOf config ≠ [])
    (hk : AllCont (kindsOf config)) (w : ℚ) (shift scale : BOState → ℚ) (mean dev : BOState → Vec → ℚ) (F : Vec → ℚ)
    (hcal : ∀ t, t.Y = some (t.X.map F) →
      FeasibleCalibrated cs (kindsOf config) F w (shift t) (scale t) (mean t) (dev t))
    (envs : BOState → EvalEnv) (henvs : ∀ t, GoodEnv (envs t))
    (hf : ∀ t, (envs t).f = acquisitionFunction sp (confidenceAcq w (mean t) (dev t)) fun _ => .ok 1)
    (hlogic : ∀ t, (envs t).op.anchorLogic = "max_objective") (deDup : Bool) (env : BOEnv)
    (hsug : env.suggest = stdSuggest sp .sequential envs deDup) (hobj : env.obj = some fun _ x => .ok (F x))
    (a : RunArgs) (hg : ValidContext sp a.context)
    (hopt : ∀ t c, contextManager sp a.context = .ok c → ∀ k, Descends ((envs t).oracle.acq.opt k) c.noncontextBounds)
    (fuel : Nat) (s s' : BOState) (why : Stop) (hY : s.Y = none ∨ s.Y = some (s.X.map F))
    (hrun : runOptimization env a fuel s = (s', .done why)) :
    ∃ (r : Results) (σ : Nat → BOState) (x : Nat → Vec) (Z : Nat → Mat), s'.results = some r ∧
      Iterates F a.context s.X.length s' σ x ∧
      (∀ k < s'.numAcq, Sampled config sp a.context (envs (σ k)).oracle.acq.design (envs (σ k)).op.numSamplesObjective (Z k) ∧
        (a.context = none → ∀ z ∈ Z k, Feasible cs z) ∧
        ∀ z ∈ Z k, Feasible cs z →
          (F z < shift (σ k) → z ∈ (σ k).X ∨
            (Feasible cs (x k) ∧ F (x k) ≤ F z + 2 * w * (scale (σ k) * dev (σ k) (x k)))) ∧
          ((∃ u ∈ (σ k).X, F u ≤ shift (σ k)) → r.fxOpt ≤ F z + 2 * w * (scale (σ k) * dev (σ k) (x k)))) ∧
      ∀ q, (∀ k < s'.numAcq, (∃ z ∈ Z k, Feasible cs z ∧ F z ≤ q) ∧ ∃ u ∈ (σ k).X, F u ≤ shift (σ k)) →
        s'.numAcq * (r.fxOpt - q) ≤ 2 * w * ∑ k ∈ Finset.range s'.numAcq, scale (σ k) * dev (σ k) (x k) := by
  obtain ⟨r, Y, i, r1, r2, r3, -⟩ := C39_reported_optimum _ a fuel s s' _ hrun
  have hv := run_values hobj hY hrun
  rw [r2] at hv
  cases hv
  have hmin : ∀ x ∈ s'.X, r.fxOpt ≤ F x := fun x hx => r3.2 _ (List.mem_map_of_mem hx)
  have key : ∀ k, ∃ (t : BOState) (x : Vec) (Z : Mat), k < s'.numAcq →
      (t.numAcq = k ∧ t.context = a.context ∧ t.X = s'.X.take (s.X.length + k) ∧
        t.Y = some (t.X.map F) ∧ s'.X[s.X.length + k]? = some x) ∧
      Sampled config sp a.context (envs t).oracle.acq.design (envs t).op.numSamplesObjective Z ∧
      (a.context = none → ∀ z ∈ Z, Feasible cs z) ∧
      ∀ z ∈ Z, Feasible cs z →
        (F z < shift t → z ∈ t.X ∨ (Feasible cs x ∧ F x ≤ F z + 2 * w * (scale t * dev t x))) ∧
        ((∃ u ∈ t.X, F u ≤ shift t) → r.fxOpt ≤ F z + 2 * w * (scale t * dev t x)) := by
    intro k
    by_cases hkn : k < s'.numAcq
    swap
    · exact ⟨s, [], [], fun hh => absurd hh hkn⟩
    obtain ⟨obj, s0, bs, sk, s2, Y, r', ho, hst0, hst, htr, -, hsp, -, -, rfl⟩ := runOptimization_done hrun
    rw [hobj] at ho
    cases ho
    have h0 := values_start hY hst0
    rw [← hst.X] at h0
    obtain ⟨ps, fs, rfl⟩ := hsp.frame
    have hsugg : ∀ (t : BOState) (m : Mat), t.context = s0.context → t.Y = some (t.X.map F) →
        env.suggest t none none = .ok m → ∃ x Z, m = [x] ∧
        Sampled config sp a.context (envs t).oracle.acq.design (envs t).op.numSamplesObjective Z ∧
        (a.context = none → ∀ z ∈ Z, Feasible cs z) ∧
        ∀ z ∈ Z, Feasible cs z → F z < shift t → z ∈ t.X ∨ (Feasible cs x ∧ F x ≤ F z + 2 * w * (scale t * dev t x)) := by
      intro t m t1 t2 t3
      rw [hsug] at t3
      unfold stdSuggest at t3
      rw [t1, hst.context] at t3
      exact confidence_constrained h hb hs hvar hk hg (henvs t) (hlogic t) (hopt t) (hf t) (hcal t t2) t3
    have hkb : k < bs.length := by
      obtain ⟨Y0, new, hY0, -, -⟩ := hst.Y
      obtain ⟨-, -, -, -, -, d6, -⟩ := htr.data hY0
      rw [hst.numAcq] at d6
      have hk' : k < sk.numAcq := hkn
      omega
    obtain ⟨t, x, t1, t2, t3, t4, t5, t6⟩ := trace_states htr h0 (fun t m e1 e2 e3 => by
      obtain ⟨x, Z, rfl, -⟩ := hsugg t m e1 e2 e3
      rfl) k hkb
    obtain ⟨x', Z, hx', hZ1, hZ0, hZ2⟩ := hsugg t _ t2 t4 t5
    simp only [List.cons.injEq, and_true] at hx'
    subst hx'
    rw [hst.numAcq, Nat.zero_add] at t1
    rw [hst.context] at t2
    rw [hst.X] at t3
    obtain ⟨tl, htl⟩ := t6
    refine ⟨t, x, Z, fun _ => ⟨⟨t1, t2, ?_, t4, ?_⟩, hZ1, hZ0, fun z hz hfz => ⟨hZ2 z hz hfz, ?_⟩⟩⟩
    · show t.X = sk.X.take (s.X.length + k)
      rw [← htl, ← t3, List.append_assoc, List.take_left]
    · show sk.X[s.X.length + k]? = some x
      rw [← htl, ← t3, List.append_assoc, List.getElem?_append_right (le_refl _)]
      simp
    · rintro ⟨u, hu, hus⟩
      have hsub : ∀ y ∈ t.X, r.fxOpt ≤ F y := fun y hy => hmin y (by
        show y ∈ sk.X
        rw [← htl]
        simp [hy])
      obtain ⟨hpos, hdev, -⟩ := hcal t t4
      have h3 := mul_nonneg hpos.le (hdev x)
      rcases lt_or_ge (F z) (shift t) with hlt | hge
      · rcases hZ2 z hz hfz hlt with hzX | ⟨-, hle⟩
        · have := hsub z hzX
          linarith
        · have hxX : x ∈ sk.X := by rw [← htl]; simp
          exact (hmin x hxX).trans hle
      · have := hsub u hu
        linarith
  choose σ x Z hkey using key
  refine ⟨r, σ, x, Z, r1, fun k hk => (hkey k hk).1, fun k hk => (hkey k hk).2, fun q hq => ?_⟩
  refine (average_bound s'.numAcq r.fxOpt q w (fun k => scale (σ k) * dev (σ k) (x k)) fun k hk => ?_).1
  obtain ⟨⟨z, hz, hfz, hzq⟩, hu⟩ := hq k hk
  have := ((hkey k hk).2.2.2 z hz hfz).2 hu
  linarith

/-! ## Positive objectives without normalization -/

/-- The constraint `x ≤ 1/2`. -/
def exLowerHalf : List ConstrDict := [{ constraint := some fun r => (npGet r 0).map (· - 1/2) }]

/-- The objective is large at `0`, and smaller where the constraint is violated. -/
def exSlope (x : Vec) : ℚ := 2 - x.headD 0

/-- A local optimizer that tries the location `1`. -/
def exJump (g : Vec → Py ℚ) (x : Vec) : Py Vec :=
  match g (x.map fun _ => 1), g x with
  | .ok v, .ok v' => if v ≤ v' then .ok (x.map fun _ => 1) else .ok x
  | _, _ => .ok x

theorem exJump_descends {b : Bounds} (hb : ∀ x, InBox b x → InBox b (x.map fun _ => 1)) : Descends exJump b := by
  intro g x y hx hy
  unfold exJump at hy
  split at hy
  · rename_i v v' h1 h2
    split_ifs at hy with hle
    · cases hy
      exact ⟨hb x hx, fun v0 h0 => ⟨v, h1, by rw [h2] at h0; cases h0; exact hle⟩⟩
    · cases hy
      exact ⟨hx, fun v0 h0 => ⟨v0, h0, le_rfl⟩⟩
  · cases hy
    exact ⟨hx, fun v0 h0 => ⟨v0, h0, le_rfl⟩⟩

def exSlopeEnvs (shift : ℚ) (sp : Space) (_ : BOState) : EvalEnv :=
  { exEnv with
    f := acquisitionFunction sp (confidenceAcq 2 (fun x => exSlope x - shift) fun _ => 0) fun _ => .ok 1
    oracle := ⟨{ exAcq with opt := fun _ => exJump }, exAcq⟩ }

def exSlopeBO (shift : ℚ) (sp : Space) : BOEnv :=
  { exSearch sp with
    obj := some fun _ x => .ok (exSlope x)
    suggest := stdSuggest sp .sequential (exSlopeEnvs shift sp) false }

/-- **C178** (negation without normalization): the model knows the objective, which is positive. The location `1`, where the
constraint is violated, has the acquisition zero and is preferred to all feasible locations; it is evaluated, and reported as the
optimum. With the mean of the outputs subtracted the suggestion is feasible. -/
theorem C178_positive_counterexample :
    (∀ shift, FeasibleCalibrated exLowerHalf (kindsOf exUnitLine) exSlope 2 shift 1 (fun x => exSlope x - shift) fun _ => 0) ∧
    ((designSpace exUnitLine (some exLowerHalf)).map fun sp =>
      let r := runOptimization (exSlopeBO 0 sp) { maxIter := some (.fin 1) } 10 (boInit [[0], [1/4]] none .none)
      (r.2, r.1.X, r.1.results.map Results.xOpt)) = .ok (.done .limit, [[0], [1/4], [1]], some [1]) ∧
    ¬ Feasible exLowerHalf [1] ∧
    ((designSpace exUnitLine (some exLowerHalf)).map fun sp =>
      let r := runOptimization (exSlopeBO (15/8) sp) { maxIter := some (.fin 1) } 10 (boInit [[0], [1/4]] none .none)
      (r.2, r.1.X, r.1.results.map Results.xOpt)) = .ok (.done .limit, [[0], [1/4], [1/2]], some [1/2]) := by
  refine ⟨fun shift => ⟨one_pos, fun x => by simp, fun x _ _ => by simp⟩, by decide +kernel, ?_, by decide +kernel⟩
  intro hf
  obtain ⟨f, v, h1, h2, h3⟩ := hf _ (List.mem_singleton.2 rfl)
  simp only [constraintOf, Option.some.injEq] at h1
  subst h1
  have h4 : (npGet ([1] : Vec) 0).map (· - 1/2) = .ok (1/2 : ℚ) := by decide +kernel
  have h5 := Except.ok.inj (h4.symm.trans h2)
  rw [← h5] at h3
  norm_num at h3

/-! ## Rounding -/

/-- A positive acquisition that is largest between the two values of the variable. -/
def exHump (x : Vec) : Py ℚ := .ok (if x = [3/5] then 2 else 1)

/-- **C178** (negation, discrete variables): the acquisition is positive, all anchor points meet the constraint `x ≤ 3/4`, and the
local optimizer returns the best location, which meets it too. It is rounded to `1`, which does not. -/
theorem C178_rounding_counterexample :
    (∀ x v, exHump x = .ok v → 0 < v) ∧
    ((designSpace exRoundKinds (some [{ constraint := some fun r => (npGet r 0).map (· - 3/4) }])).bind fun sp =>
      (contextManager sp none).bind fun c => anchorSamples sp (some c) false "random" 3 exOracle) = .ok [[0], [0], [0]] ∧
    ((designSpace exRoundKinds (some [{ constraint := some fun r => (npGet r 0).map (· - 3/4) }])).bind fun sp =>
      (contextManager sp none).bind fun c => acqOptimize sp c none { numSamplesObjective := 3 } exBetweenOracle
        (acquisitionFunction sp exHump fun _ => .ok 1)) = .ok ([1], 0) ∧
    ((designSpace exRoundKinds (some [{ constraint := some fun r => (npGet r 0).map (· - 3/4) }])).bind fun sp =>
      mapE (acquisitionFunction sp exHump fun _ => .ok 1) [[0], [3/5], [1]]) = .ok [-1, -2, 0] ∧
    ∀ k g x, exBetweenOracle.opt k g x = .ok [3/5] := by
  refine ⟨fun x v h => ?_, by decide +kernel, by decide +kernel, by decide +kernel, fun _ _ _ => rfl⟩
  simp only [exHump, Except.ok.injEq] at h
  rw [← h]
  split_ifs <;> norm_num

/-! ## Examples -/

theorem exJump_unit {sp : Space} (h : designSpace exUnitLine (some exLowerHalf) = .ok sp) (hb : sp.hasBandit = false)
    {c : Ctx} (hc : contextManager sp none = .ok c) : Descends exJump c.noncontextBounds := by
  have hk : kindsOf exUnitLine = [.continuous 0 1] := by decide +kernel
  have hkk := space_kinds_eq h
  refine exJump_descends ?_
  rw [bounds_cont h hb (by rw [hkk, hk]; intro k hk; exact ⟨0, 1, by simpa using hk⟩) hc, keep_true (fun i => by
    simp [freePos, contextManager_none hc]), hkk, hk]
  intro x hx
  cases hx with
  | cons _ h2 =>
    cases h2
    exact .cons (by simp [contBox]) .nil

theorem exJump_good : GoodAcq { exAcq with opt := fun _ => exJump } :=
  ⟨exAcq_good.unit, exAcq_good.argsort, exAcq_good.thompson, fun k g x y hy => by
    simp only [exJump] at hy
    split at hy
    · split_ifs at hy <;> cases hy <;> simp
    · cases hy
      rfl⟩

/-- The hypotheses of `C178_search`: the model of the counterexample, with the mean of the outputs subtracted. -/
example {sp : Space} (h : designSpace exUnitLine (some exLowerHalf) = .ok sp) (a : RunArgs) (ha : a.context = none) (fuel : Nat)
    (s' : BOState) (why : Stop)
    (hrun : runOptimization (exSlopeBO (15/8) sp) a fuel (boInit [[0], [1/4]] none .none) = (s', .done why)) :
    ∃ (r : Results) (σ : Nat → BOState) (x : Nat → Vec) (Z : Nat → Mat), s'.results = some r ∧
      Iterates exSlope a.context 2 s' σ x ∧
      ∀ k < s'.numAcq, ∀ z ∈ Z k, Feasible exLowerHalf z ∧ (exSlope z < 15/8 → z ∈ (σ k).X ∨
        (Feasible exLowerHalf (x k) ∧ exSlope (x k) ≤ exSlope z + 2 * 2 * (1 * 0))) := by
  have hk : kindsOf exUnitLine = [.continuous 0 1] := by decide +kernel
  have hb : sp.hasBandit = false := by
    have : (designSpace exUnitLine (some exLowerHalf)).map Space.hasBandit = .ok false := by decide +kernel
    rw [h] at this
    simpa [Except.map] using this
  obtain ⟨r, σ, x, Z, h1, h2, h3, -⟩ := C178_search h hb (by rw [hk]; simp [Samplable]) (by rw [hk]; simp)
    (by rw [hk]; intro k hk; exact ⟨0, 1, by simpa using hk⟩) 2 (fun _ => 15/8) (fun _ => 1) (fun _ x => exSlope x - 15/8)
    (fun _ _ => 0) exSlope (fun _ _ => C178_positive_counterexample.1 _) (exSlopeEnvs (15/8) sp)
    (fun _ => ⟨⟨by simp [exSlopeEnvs, exEnv], by simp [exSlopeEnvs, exEnv], by simp [exSlopeEnvs, exEnv]⟩, exJump_good,
      exAcq_good, by simp [exSlopeEnvs, exEnv], by simp [exSlopeEnvs, exEnv]⟩) (fun _ => rfl)
    (fun _ => by simp [exSlopeEnvs, exEnv]) false (exSlopeBO (15/8) sp) rfl rfl a (by simp [ValidContext, ha])
    (fun t c hc k => exJump_unit h hb (ha ▸ hc)) fuel _ s' why (.inl rfl) hrun
  exact ⟨r, σ, x, Z, h1, h2, fun k hk z hz => ⟨(h3 k hk).2.1 ha z hz, ((h3 k hk).2.2 z hz ((h3 k hk).2.1 ha z hz)).1⟩⟩

def exPositiveEnvs (sp : Space) (_ : BOState) : EvalEnv :=
  { exEnv with
    f := acquisitionFunction sp (fun x => .ok (1 + x.headD 0 ^ 2)) fun x => .ok (2 + x.headD 0 ^ 2)
    oracle := ⟨{ exAcq with opt := fun _ => exJump }, exAcq⟩ }

def exPositiveBO (sp : Space) : BOEnv :=
  { exSearch sp with
    obj := some fun _ x => .ok (exSlope x)
    suggest := stdSuggest sp .sequential (exPositiveEnvs sp) true }

/-- The hypotheses of `C178_feasible`, with costs and de-duplication. -/
example {sp : Space} (h : designSpace exUnitLine (some exLowerHalf) = .ok sp) (a : RunArgs) (ha : a.context = none) (fuel : Nat)
    (s s' : BOState) (why : Stop) (hX : ∀ x ∈ s.X, Feasible exLowerHalf x)
    (hrun : runOptimization (exPositiveBO sp) a fuel s = (s', .done why)) : ∀ x ∈ s'.X, Feasible exLowerHalf x := by
  have hk : kindsOf exUnitLine = [.continuous 0 1] := by decide +kernel
  have hb : sp.hasBandit = false := by
    have : (designSpace exUnitLine (some exLowerHalf)).map Space.hasBandit = .ok false := by decide +kernel
    rw [h] at this
    simpa [Except.map] using this
  exact (C178_feasible h hb (by rw [hk]; simp [Samplable]) (by rw [hk]; simp)
    (by rw [hk]; intro k hk; exact ⟨0, 1, by simpa using hk⟩) (fun _ x => .ok (1 + x.headD 0 ^ 2))
    (fun _ x => .ok (2 + x.headD 0 ^ 2))
    (fun _ x v hv => by
      simp only [Except.ok.injEq] at hv
      rw [← hv]
      positivity)
    (fun _ x v hv => by
      simp only [Except.ok.injEq] at hv
      rw [← hv]
      positivity) (exPositiveEnvs sp)
    (fun _ => ⟨⟨by simp [exPositiveEnvs, exEnv], by simp [exPositiveEnvs, exEnv], by simp [exPositiveEnvs, exEnv]⟩, exJump_good,
      exAcq_good, by simp [exPositiveEnvs, exEnv], by simp [exPositiveEnvs, exEnv]⟩) (fun _ => rfl)
    (fun _ => by simp [exPositiveEnvs, exEnv]) true (exPositiveBO sp) rfl a ha
    (fun t c hc k => exJump_unit h hb hc) fuel s s' why hX hrun).1

/-- One iteration. -/
example : ((designSpace exUnitLine (some exLowerHalf)).map fun sp =>
      let r := runOptimization (exPositiveBO sp) { maxIter := some (.fin 1) } 10 (boInit [[0], [1/4]] none .none)
      (r.2, r.1.X, r.1.results.map Results.xOpt)) = .ok (.done .limit, [[0], [1/4], [1/2]], some [1/2]) := by
  decide +kernel

end GPyOpt.Props
