import Verif.Props.RegretBatch
import Verif.Props.RegretMPI
import Verif.Props.Constructor
import Verif.Model.LocalPenalization

/-!
# C183: batches by expected improvement and by the probability of improvement

The first location of a batch is the one that is suggested alone (C165), and all locations of the batch become data of the model.
So the bounds of C172 and C176 hold for batches, with the deviation at the first location of each.
-/

namespace GPyOpt.Props

open GPyOpt Spec

/-- The values of `f` order the locations as those of `g` do, up to `ε`. -/
def NearlyOrders (ε : ℝ) (f : Vec → Py ℚ) (g : Vec → ℝ) : Prop :=
  ∀ x z v v', f x = .ok v → f z = .ok v' → v ≤ v' → g x ≤ g z + ε

theorem values_of_noisy {F : Vec → ℚ} {t : BOState} (h : DataRel (Noisy F 0) t) : t.Y = some (t.X.map F) := by
  obtain ⟨Y, hY, hrel⟩ := h
  rw [hY]
  congr 1
  generalize t.X = X at hrel
  clear hY
  induction hrel with
  | nil => rfl
  | cons h _ ih =>
    unfold Noisy at h
    rw [List.map_cons, ← ih, sub_eq_zero.1 (abs_nonpos_iff.1 h)]

theorem noisy_of_values {F : Vec → ℚ} {t : BOState} (h : t.Y = some (t.X.map F)) : DataRel (Noisy F 0) t := by
  refine ⟨_, h, ?_⟩
  generalize t.X = X
  induction X with
  | nil => exact .nil
  | cons x X ih => exact .cons (by simp [Noisy]) ih

/-- In every state of a run the first location of the batch and the samples have the property `P`. -/
theorem run_batches {ks : List Kind} {F : Vec → ℚ} {env : BOEnv} {P : BOState → Vec → Mat → Prop}
    (hobj : env.obj = some fun _ x => .ok (F x)) (a : RunArgs)
    (hsugg : ∀ (t : BOState) (m : Mat), t.context = a.context → t.Y = some (t.X.map F) → t.X ≠ [] →
      env.suggest t none none = .ok m → (∀ y ∈ m, ObjDomain ks y) ∧ ∃ x rest Z, m = x :: rest ∧ P t x Z)
    {fuel : Nat} {s s' : BOState} {why : Stop} (hne : s.X ≠ [])
    (hX : ∀ x ∈ s.X, ObjDomain ks x) (hY : s.Y = none ∨ s.Y = some (s.X.map F))
    (hrun : runOptimization env a fuel s = (s', .done why)) :
    ∃ (r : Results) (σ : Nat → BOState) (B : Nat → Mat) (x : Nat → Vec) (Z : Nat → Mat), s'.results = some r ∧
      (∀ x ∈ s'.X, r.fxOpt ≤ F x) ∧ BatchIterates F 0 a.context s.X s' σ B ∧
      ∀ k < s'.numAcq, (B k).head? = some (x k) ∧ (∀ y ∈ (σ k).X, ObjDomain ks y) ∧ P (σ k) (x k) (Z k) := by
  have hnoise : ∀ (k : Nat) x y, (fun (_ : Nat) (x : Vec) => (Except.ok (F x) : Py ℚ)) k x = .ok y → Noisy F 0 x y := by
    intro k x y h
    simp only [Except.ok.injEq] at h
    subst h
    simp [Noisy]
  have hY' : s.Y = none ∨ DataRel (Noisy F 0) s := hY.imp id noisy_of_values
  obtain ⟨r, r1, -, -, r3, -⟩ := C177_optimum F 0 hnoise env hobj a fuel s s' why hY' hrun
  obtain ⟨obj', s0, bs, sk, s2, Y, r', ho, hst0, hst, htr, -, hsp, -, -, hs'⟩ := runOptimization_done hrun
  rw [hobj] at ho
  cases ho
  have h0 := start_rel hnoise hY' hst0 hst.X
  obtain ⟨ps, fs, rfl⟩ := hsp.frame
  have hX' : s'.X = sk.X := by rw [hs']
  have hn' : s'.numAcq = sk.numAcq := by rw [hs']
  obtain ⟨Y0, new, hY0, -, -⟩ := hst.Y
  obtain ⟨d1, -, -, -, -, d6, -⟩ := htr.data hY0
  rw [hst.numAcq, Nat.zero_add] at d6
  rw [hst.X] at d1
  have hrows : ∀ k ≤ bs.length, batchRows (bs.take k) = ((List.range k).map fun i => (bs.getD i ([], [])).1).flatten := by
    intro k hk
    rw [batchRows, take_range_map ([], []) Prod.fst bs k hk]
  have key : ∀ k, ∃ (t : BOState) (x : Vec) (Z : Mat), k < s'.numAcq →
      (t.numAcq = k ∧ t.context = a.context ∧
        t.X = s.X ++ ((List.range k).map fun i => (bs.getD i ([], [])).1).flatten ∧ DataRel (Noisy F 0) t) ∧
      (∀ y ∈ (bs.getD k ([], [])).1, ObjDomain ks y) ∧ (bs.getD k ([], [])).1.head? = some x ∧ P t x Z := by
    intro k
    by_cases hkn : k < s'.numAcq
    swap
    · exact ⟨s, [], [], fun hh => absurd hh hkn⟩
    have hkb : k < bs.length := by omega
    obtain ⟨t, t1, t2, t3, t4, t5⟩ := trace_batches hnoise htr h0 k hkb
    rw [hst.numAcq, Nat.zero_add] at t1
    rw [hst.context] at t2
    rw [hst.X] at t3
    have hne' : t.X ≠ [] := by
      rw [t3]
      simp [hne]
    obtain ⟨hd, x, rest, Z, hm, hP⟩ := hsugg t _ t2 (values_of_noisy t4) hne' t5
    have hget : bs.getD k ([], []) = bs[k] := by
      simp [List.getD_eq_getElem?_getD, List.getElem?_eq_getElem hkb]
    exact ⟨t, x, Z, fun _ => ⟨⟨t1, t2, by rw [t3, hrows k hkb.le], t4⟩, by rw [hget]; exact hd, by rw [hget, hm]; rfl, hP⟩⟩
  choose σ x Z hkey using key
  refine ⟨r, σ, fun i => (bs.getD i ([], [])).1, x, Z, r1, fun x hx => ?_, ⟨?_, fun k hk => (hkey k hk).1⟩,
    fun k hk => ⟨(hkey k hk).2.2.1, fun y hy => ?_, (hkey k hk).2.2.2⟩⟩
  · have := (r3 x hx).1
    linarith
  · rw [hX', hn', d6, d1, ← hrows _ le_rfl, List.take_length]
  · rw [(hkey k hk).1.2.2.1] at hy
    rcases List.mem_append.1 hy with hy | hy
    · exact hX y hy
    · obtain ⟨l, hl, hyl⟩ := List.mem_flatten.1 hy
      obtain ⟨i, hi, rfl⟩ := List.mem_map.1 hl
      exact (hkey i ((List.mem_range.1 hi).trans hk)).2.1 y hyl

/-- The data of a run with batches: the first locations are evaluated, and the best value so far is a value at the data. -/
theorem batches_best {F : Vec → ℚ} {ν : ℚ} {context : Option Context} {X0 : Mat} {s' : BOState} {σ : Nat → BOState}
    {B : Nat → Mat} {x : Nat → Vec} {v : ℚ} (hit : BatchIterates F ν context X0 s' σ B)
    (hx : ∀ k < s'.numAcq, (B k).head? = some (x k)) (hv : ∀ u ∈ s'.X, v ≤ F u) {x0 : Vec} (hx0 : x0 ∈ X0) :
    v ≤ F x0 ∧ (∀ k < s'.numAcq, v ≤ F (x k) ∧ ∀ u ∈ (σ k).X, v ≤ F u) ∧
    ∀ k < s'.numAcq, ∃ p ∈ (σ k).X, bestAfter F (F x0) x k = F p := by
  obtain ⟨h1, h2⟩ := hit
  have hmem : ∀ k < s'.numAcq, ∀ n, k < n → x k ∈ X0 ++ ((List.range n).map B).flatten := by
    intro k hk n hn
    exact List.mem_append_right _ (List.mem_flatten.2 ⟨B k, List.mem_map.2 ⟨k, List.mem_range.2 hn, rfl⟩,
      List.mem_of_mem_head? (hx k hk)⟩)
  have hsub : ∀ k n, k ≤ n → ∀ u ∈ X0 ++ ((List.range k).map B).flatten, u ∈ X0 ++ ((List.range n).map B).flatten := by
    intro k n hkn u hu
    rcases List.mem_append.1 hu with hu | hu
    · exact List.mem_append_left _ hu
    · obtain ⟨l, hl, hul⟩ := List.mem_flatten.1 hu
      obtain ⟨i, hi, rfl⟩ := List.mem_map.1 hl
      exact List.mem_append_right _ (List.mem_flatten.2 ⟨B i, List.mem_map.2 ⟨i, List.mem_range.2
        ((List.mem_range.1 hi).trans_le hkn), rfl⟩, hul⟩)
  refine ⟨hv x0 (h1 ▸ List.mem_append_left _ hx0), fun k hk => ⟨hv _ (h1 ▸ hmem k hk _ hk), fun u hu => hv u ?_⟩, fun k hk => ?_⟩
  · rw [(h2 k hk).2.2.1] at hu
    exact h1 ▸ hsub k _ hk.le u hu
  · rw [(h2 k hk).2.2.1]
    have : ∀ j ≤ k, ∃ p ∈ X0 ++ ((List.range j).map B).flatten, bestAfter F (F x0) x j = F p := by
      intro j
      induction j with
      | zero => exact fun _ => ⟨x0, List.mem_append_left _ hx0, rfl⟩
      | succ j ih =>
        intro hj
        obtain ⟨p, hp, hpe⟩ := ih (by omega)
        rcases min_choice (bestAfter F (F x0) x j) (F (x j)) with he | he
        · exact ⟨p, hsub j (j + 1) (by omega) p hp, he.trans hpe⟩
        · exact ⟨x j, hmem j (by omega) (j + 1) (by omega), he⟩
    exact this k (le_refl _)

/-- **C183** for the acquisition `EI`, a run: suggestions one at a time, in batches completed at random, or in batches by local
penalization (whose acquisition without penalizers is any transformation that keeps the order, up to `2 * η`), continuous
variables without constraints, any context, and a model whose intervals contain the objective whenever its data are values of
the objective. The bound of `C172_run` holds with one term per batch, for its first location. -/
theorem C183_ei_run {config : List Desc} {sp : Space} (h : designSpace config none = .ok sp) (hb : sp.hasBandit = false)
    (hs : ∀ k ∈ kindsOf config, Samplable k) (hvar : kindsOf config ≠ []) (hk : AllCont (kindsOf config))
    (ev : Evaluator) (hev : ∀ n, ev ≠ .thompson n) (deDup : Bool) (hgev : GoodEvaluator deDup ev)
    (w η jitter : ℝ) (hw : 0 ≤ w) (hj : 0 ≤ jitter) (hη : 0 ≤ η) (δ : BOState → ℝ) (b : BOState → Belief) (F : Vec → ℚ)
    (hcal : ∀ t, t.Y = some (t.X.map F) → t.X ≠ [] → Trusted (kindsOf config) F w (δ t) t.X (b t))
    (envs : BOState → EvalEnv) (henvs : ∀ t, GoodEnv (envs t)) (hlp : ∀ t k, GoodAcq ((envs t).acqLP k))
    (hns : ∀ t n, ev = .random n → n - 1 ≤ (envs t).numSamplesRandom)
    (hf : ∀ t, NearlyOrders (2 * η) (firstEnv ev (envs t)).f fun x =>
      eiAcquisition jitter (b t).fmin ((b t).mean x) ((b t).dev x) 1 1)
    (hlogic : ∀ t, (envs t).op.anchorLogic = "max_objective")
    (hzero : (∃ n, ev = .random n) → deDup = true → ∀ x, ObjDomain (kindsOf config) x → ∃ v ∈ x, v ≠ 0) (env : BOEnv)
    (hsug : env.suggest = stdSuggest sp ev envs deDup) (hobj : env.obj = some fun _ x => .ok (F x))
    (a : RunArgs) (hg : ValidContext sp a.context)
    (hopt : ∀ t c, contextManager sp a.context = .ok c → ∀ k,
      Descends ((firstEnv ev (envs t)).oracle.acq.opt k) c.noncontextBounds)
    (fuel : Nat) (s s' : BOState) (why : Stop) (hX : ∀ x ∈ s.X, ObjDomain (kindsOf config) x)
    (hY : s.Y = none ∨ s.Y = some (s.X.map F)) (hrun : runOptimization env a fuel s = (s', .done why))
    (x0 : Vec) (hx0 : x0 ∈ s.X) :
    ∃ (r : Results) (σ : Nat → BOState) (B : Nat → Mat) (x : Nat → Vec) (Z : Nat → Mat), s'.results = some r ∧
      BatchIterates F 0 a.context s.X s' σ B ∧
      (∀ k < s'.numAcq, (B k).head? = some (x k) ∧ Sampled config sp a.context (firstEnv ev (envs (σ k))).oracle.acq.design
        (envs (σ k)).op.numSamplesObjective (Z k)) ∧
      ∀ q : ℚ, (∀ k < s'.numAcq, ∃ z ∈ Z k, F z ≤ q) →
        s'.numAcq * ((r.fxOpt : ℝ) - q) ≤
          ∑ k ∈ Finset.range s'.numAcq, (b (σ k)).scale * (jitter + (1 + improvementRatio w) * (w * δ (σ k))) +
          improvementRatio w * ((F x0 - r.fxOpt) + ∑ k ∈ Finset.range s'.numAcq,
            (b (σ k)).scale * ((w + 1 / 2) * clipStd ((b (σ k)).dev (x k)) + 2 * η)) := by
  have hfirst : ∀ t, GoodAcq (firstEnv ev (envs t)).oracle.acq := by
    intro t
    cases ev with
    | localPenalization n => exact hlp t 0
    | sequential => exact (henvs t).acq
    | random n => exact (henvs t).acq
    | thompson n => exact (henvs t).acq
  obtain ⟨r, σ, B, x, Z, r1, r2, r3, r4⟩ := run_batches (ks := kindsOf config) (F := F) (env := env)
    (P := fun t x Z => Sampled config sp a.context (firstEnv ev (envs t)).oracle.acq.design (envs t).op.numSamplesObjective Z ∧
      Trusted (kindsOf config) F w (δ t) t.X (b t) ∧
      ∀ z ∈ Z, z ∈ t.X ∨ (b t).fmin - jitter - (b t).std (F z) ≤ improvementRatio w *
          (max ((b t).fmin - jitter - (b t).std (F x)) 0 + (w + 1 / 2) * clipStd ((b t).dev x) + 2 * η)) hobj a
    (fun t m t1 t2 t3 t4 => by
      rw [hsug] at t4
      unfold stdSuggest at t4
      rw [t1] at t4
      refine ⟨fun y hy => (suggestions_in_domain h hb hs hvar hg (henvs t) (hlp t) hgev (hns t) t4 y hy).1, ?_⟩
      obtain ⟨x, rest, Z, e1, e2, e3, -, e4⟩ := least_first h hb hs hvar hk a.context hg ev hev (envs t) (henvs t).op (hfirst t)
        (hlogic t) (hopt t) deDup hzero t.X m t4
      refine ⟨x, rest, Z, e1, e3, hcal t t2 t3, fun z hz => ?_⟩
      obtain ⟨hz1, hz2⟩ := e4 z hz
      refine hz2.imp id fun ⟨u, v, hu, hv, huv⟩ => ?_
      exact improvement_step hw (hcal t t2 t3) e2 hz1 (hf t _ _ _ _ hu hv huv))
    (List.ne_nil_of_mem hx0) hX hY hrun
  refine ⟨r, σ, B, x, Z, r1, r3, fun k hk => ⟨(r4 k hk).1, (r4 k hk).2.2.1⟩, fun q hq => ?_⟩
  obtain ⟨b1, b2, b3⟩ := batches_best r3 (fun k hk => (r4 k hk).1) r2 hx0
  refine improvement_total (improvementRatio_ge hw) hw hj hη b1 b2 b3 (fun k hk => ⟨(r4 k hk).2.1, (r4 k hk).2.2.2.1⟩) fun k hk => ?_
  obtain ⟨z, hz, hzq⟩ := hq k hk
  exact ⟨z, hzq, (r4 k hk).2.2.2.2 z hz⟩

/-- **C183** for the acquisition `MPI`: as `C183_ei_run`, with the alternative of `C176_run`. -/
theorem C183_mpi_run {config : List Desc} {sp : Space} (h : designSpace config none = .ok sp) (hb : sp.hasBandit = false)
    (hs : ∀ k ∈ kindsOf config, Samplable k) (hvar : kindsOf config ≠ []) (hk : AllCont (kindsOf config))
    (ev : Evaluator) (hev : ∀ n, ev ≠ .thompson n) (deDup : Bool) (hgev : GoodEvaluator deDup ev)
    (w w' η jitter : ℝ) (hw : 0 ≤ w) (hj : 0 ≤ jitter) (hη : 2 * η < ncdf (-w) - ncdf (-w')) (δ : BOState → ℝ)
    (b : BOState → Belief) (F : Vec → ℚ)
    (hcal : ∀ t, t.Y = some (t.X.map F) → t.X ≠ [] → Trusted (kindsOf config) F w (δ t) t.X (b t))
    (envs : BOState → EvalEnv) (henvs : ∀ t, GoodEnv (envs t)) (hlp : ∀ t k, GoodAcq ((envs t).acqLP k))
    (hns : ∀ t n, ev = .random n → n - 1 ≤ (envs t).numSamplesRandom)
    (hf : ∀ t, NearlyOrders (2 * η) (firstEnv ev (envs t)).f fun x =>
      mpiAcquisition jitter (b t).fmin ((b t).mean x) ((b t).dev x) 1 1)
    (hlogic : ∀ t, (envs t).op.anchorLogic = "max_objective")
    (hzero : (∃ n, ev = .random n) → deDup = true → ∀ x, ObjDomain (kindsOf config) x → ∃ v ∈ x, v ≠ 0) (env : BOEnv)
    (hsug : env.suggest = stdSuggest sp ev envs deDup) (hobj : env.obj = some fun _ x => .ok (F x))
    (a : RunArgs) (hg : ValidContext sp a.context)
    (hopt : ∀ t c, contextManager sp a.context = .ok c → ∀ k,
      Descends ((firstEnv ev (envs t)).oracle.acq.opt k) c.noncontextBounds)
    (fuel : Nat) (s s' : BOState) (why : Stop) (hX : ∀ x ∈ s.X, ObjDomain (kindsOf config) x)
    (hY : s.Y = none ∨ s.Y = some (s.X.map F)) (hrun : runOptimization env a fuel s = (s', .done why))
    (x0 : Vec) (hx0 : x0 ∈ s.X) :
    ∃ (r : Results) (σ : Nat → BOState) (B : Nat → Mat) (x : Nat → Vec) (Z : Nat → Mat), s'.results = some r ∧
      BatchIterates F 0 a.context s.X s' σ B ∧
      (∀ k < s'.numAcq, (B k).head? = some (x k) ∧ Sampled config sp a.context (firstEnv ev (envs (σ k))).oracle.acq.design
        (envs (σ k)).op.numSamplesObjective (Z k)) ∧
      ∀ q : ℚ, (∀ k < s'.numAcq, ∃ z ∈ Z k, F z ≤ q) →
        (∃ k < s'.numAcq, (r.fxOpt : ℝ) ≤ q + (b (σ k)).scale * (jitter + w * δ (σ k))) ∨
        (∑ k ∈ Finset.range s'.numAcq, max 0 ((b (σ k)).scale *
            (jitter - w * δ (σ k) - (w + w') * clipStd ((b (σ k)).dev (x k)))) ≤ F x0 - r.fxOpt ∧
          ∀ σ₀ : ℝ, 0 ≤ σ₀ → (∀ k < s'.numAcq, σ₀ ≤ (b (σ k)).scale) →
            (((Finset.range s'.numAcq).filter fun k =>
              w * δ (σ k) + (w + w') * clipStd ((b (σ k)).dev (x k)) ≤ jitter / 2).card : ℝ) * (σ₀ * (jitter / 2))
              ≤ F x0 - r.fxOpt) := by
  have hfirst : ∀ t, GoodAcq (firstEnv ev (envs t)).oracle.acq := by
    intro t
    cases ev with
    | localPenalization n => exact hlp t 0
    | sequential => exact (henvs t).acq
    | random n => exact (henvs t).acq
    | thompson n => exact (henvs t).acq
  obtain ⟨r, σ, B, x, Z, r1, r2, r3, r4⟩ := run_batches (ks := kindsOf config) (F := F) (env := env)
    (P := fun t x Z => Sampled config sp a.context (firstEnv ev (envs t)).oracle.acq.design (envs t).op.numSamplesObjective Z ∧
      Trusted (kindsOf config) F w (δ t) t.X (b t) ∧
      ∀ z ∈ Z, z ∉ t.X → (b t).std (F z) ≤ (b t).fmin - jitter →
        (b t).std (F x) ≤ (b t).fmin - jitter + (w + w') * clipStd ((b t).dev x)) hobj a
    (fun t m t1 t2 t3 t4 => by
      rw [hsug] at t4
      unfold stdSuggest at t4
      rw [t1] at t4
      refine ⟨fun y hy => (suggestions_in_domain h hb hs hvar hg (henvs t) (hlp t) hgev (hns t) t4 y hy).1, ?_⟩
      obtain ⟨x, rest, Z, e1, e2, e3, -, e4⟩ := least_first h hb hs hvar hk a.context hg ev hev (envs t) (henvs t).op (hfirst t)
        (hlogic t) (hopt t) deDup hzero t.X m t4
      refine ⟨x, rest, Z, e1, e3, hcal t t2 t3, fun z hz hzX hzf => ?_⟩
      obtain ⟨hz1, hz2⟩ := e4 z hz
      obtain ⟨u, v, hu, hv, huv⟩ := hz2.resolve_left hzX
      exact probability_step hw hη (hcal t t2 t3) e2 hz1 (hf t _ _ _ _ hu hv huv) hzf)
    (List.ne_nil_of_mem hx0) hX hY hrun
  refine ⟨r, σ, B, x, Z, r1, r3, fun k hk => ⟨(r4 k hk).1, (r4 k hk).2.2.1⟩, fun q hq => ?_⟩
  obtain ⟨b1, b2, b3⟩ := batches_best r3 (fun k hk => (r4 k hk).1) r2 hx0
  refine jitter_total hw hj b1 b2 b3 (fun k hk => ⟨(r4 k hk).2.1, (r4 k hk).2.2.2.1⟩) fun k hk => ?_
  obtain ⟨z, hz, hzq⟩ := hq k hk
  exact ⟨z, hzq, (r4 k hk).2.2.2.2 z hz⟩

/-- **C183** for local penalization: the logarithm of an acquisition between zero and `G`, computed up to `ρ`, orders the locations
as the acquisition does up to `2 * ρ * (G + 1e-50)`, which is the hypothesis of the theorems above. `EI` and `MPI` are penalized
with the transformation `none` (`LP.py:26-34`). -/
theorem C183_penalized {d : Nat} (pt : Vec → Pt d) (g : Vec → ℝ) (G ρ : ℝ) (hg : ∀ x, 0 ≤ g x ∧ g x ≤ G) (f : Vec → Py ℚ)
    (hf : ∀ x v, f x = .ok v → |(v : ℝ) - lpValue .none (-g x) none (pt x)| ≤ ρ) :
    NearlyOrders (2 * (ρ * (G + 1 / 10 ^ 50))) f fun x => -g x := by
  intro x z v v' h1 h2 hle
  have e1 := abs_le.1 (hf x v h1)
  have e2 := abs_le.1 (hf z v' h2)
  have e3 : (v : ℝ) ≤ v' := by exact_mod_cast hle
  have hval : ∀ x, lpValue .none (-g x) none (pt x) = -Real.log (g x + 1 / 10 ^ 50) := by
    intro x
    simp [lpValue, lpTransformed]
  rw [hval] at e1 e2
  obtain ⟨ε, hε⟩ : ∃ ε : ℝ, ε = 1 / 10 ^ 50 := ⟨_, rfl⟩
  have hε0 : 0 < ε := by rw [hε]; positivity
  rw [← hε] at e1 e2 ⊢
  have px : 0 < g x + ε := by linarith [(hg x).1]
  have pz : 0 < g z + ε := by linarith [(hg z).1]
  have hρ : 0 ≤ ρ := by linarith [e1.1, e1.2]
  -- the ratio of the acquisitions is at least `exp (-2 * ρ)`
  have h4 : Real.log (g z + ε) - 2 * ρ ≤ Real.log (g x + ε) := by linarith [e1.1, e2.2]
  have h5 := Real.exp_le_exp.2 h4
  rw [Real.exp_log px, sub_eq_add_neg, Real.exp_add, Real.exp_log pz] at h5
  have h6 := Real.add_one_le_exp (-(2 * ρ))
  have h7 := mul_le_mul_of_nonneg_left h6 pz.le
  have h8 : ρ * (g z + ε) ≤ ρ * (G + ε) := mul_le_mul_of_nonneg_left (by linarith [(hg z).2]) hρ
  show -g x ≤ -g z + 2 * (ρ * (G + ε))
  nlinarith

/-! ## Examples -/

theorem nearlyOrders_of_near {η : ℝ} {f : Vec → Py ℚ} {g : Vec → ℝ} (h : ∀ x v, f x = .ok v → |(v : ℝ) - g x| ≤ η) :
    NearlyOrders (2 * η) f g := by
  intro x z v v' h1 h2 hle
  have e1 := (abs_le.1 (h x v h1)).1
  have e2 := (abs_le.1 (h z v' h2)).2
  have e3 : (v : ℝ) ≤ v' := by exact_mod_cast hle
  linarith

/-- The probability of improvement is at most one, so that errors `ρ` of the logarithms have little effect. -/
example {d : Nat} (pt : Vec → Pt d) (b : Belief) (jitter ρ : ℝ) (f : Vec → Py ℚ)
    (hf : ∀ x v, f x = .ok v →
      |(v : ℝ) - lpValue .none (mpiAcquisition jitter b.fmin (b.mean x) (b.dev x) 1 1) none (pt x)| ≤ ρ) :
    NearlyOrders (2 * (ρ * (1 + 1 / 10 ^ 50))) f fun x => mpiAcquisition jitter b.fmin (b.mean x) (b.dev x) 1 1 := by
  simp only [mpiAcquisition_std] at hf ⊢
  exact C183_penalized pt _ 1 ρ (fun x => ⟨(ncdf_pos _).le, (ncdf_lt_one _).le⟩) f hf

noncomputable def exBatchEIBO (n : Nat) (sp : Space) : BOEnv :=
  { exSearch sp with
    obj := some fun _ x => .ok (exValley x)
    suggest := stdSuggest sp (.random n) exEIEnvs false }

noncomputable def exBatchMPIBO (n : Nat) (sp : Space) : BOEnv :=
  { exSearch sp with
    obj := some fun _ x => .ok (exValley x)
    suggest := stdSuggest sp (.random n) exMPIEnvs false }

/-- The hypotheses of `C183_ei_run` are met by search with Lipschitz bounds and batches of two. -/
example {sp : Space} (h : designSpace exUnitLine none = .ok sp) (a : RunArgs) (ha : a.context = none) (fuel : Nat)
    (s' : BOState) (why : Stop) (hrun : runOptimization (exBatchEIBO 2 sp) a fuel (boInit [[0]] none .none) = (s', .done why)) :
    ∃ (r : Results) (σ : Nat → BOState) (B : Nat → Mat) (x : Nat → Vec) (Z : Nat → Mat), s'.results = some r ∧
      BatchIterates exValley 0 a.context [[0]] s' σ B ∧
      ∀ q : ℚ, (∀ k < s'.numAcq, ∃ z ∈ Z k, exValley z ≤ q) →
        s'.numAcq * ((r.fxOpt : ℝ) - q) ≤
          ∑ k ∈ Finset.range s'.numAcq, (exBelief (σ k)).scale * (1 / 100 + (1 + improvementRatio 1) * (1 * 0)) +
          improvementRatio 1 * ((exValley [0] - r.fxOpt) + ∑ k ∈ Finset.range s'.numAcq,
            (exBelief (σ k)).scale * ((1 + 1 / 2) * clipStd ((exBelief (σ k)).dev (x k)) + 2 * (1 / 1000))) := by
  have hk : kindsOf exUnitLine = [.continuous 0 1] := by decide +kernel
  have hb : sp.hasBandit = false := by
    have : (designSpace exUnitLine none).map Space.hasBandit = .ok false := by decide +kernel
    rw [h] at this
    simpa [Except.map] using this
  obtain ⟨r, σ, B, x, Z, h1, h2, -, h4⟩ := C183_ei_run h hb (by rw [hk]; simp [Samplable]) (by rw [hk]; simp)
    (by rw [hk]; intro k hk; exact ⟨0, 1, by simpa using hk⟩) (.random 2) (by simp) false (by simp [GoodEvaluator])
    1 (1 / 1000) (1 / 100) zero_le_one (by norm_num) (by norm_num) (fun _ => 0) exBelief exValley
    (fun t ht hne => by rw [hk]; exact exBelief_trusted t ht hne) exEIEnvs (fun t => ((exEI_calm sp).calm t).good)
    (fun _ _ => exAcq_good) (fun t n hn => by cases hn; exact ((exEI_calm sp).calm t).good.nRandom)
    (fun t => nearlyOrders_of_near (exEI_improvement t)) (fun _ => rfl) (by simp) (exBatchEIBO 2 sp) rfl rfl a
    (by simp [ValidContext, ha]) (fun t c _ k => exStay_descends k _) fuel _ s' why (by
      rw [hk]
      simp [boInit, ObjDomain, ValidObj]) (.inl rfl) hrun [0] (by simp [boInit])
  exact ⟨r, σ, B, x, Z, h1, h2, h4⟩

/-- The hypotheses of `C183_mpi_run` are met by search with Lipschitz bounds and batches of two. -/
example {sp : Space} (h : designSpace exUnitLine none = .ok sp) (a : RunArgs) (ha : a.context = none) (fuel : Nat)
    (s' : BOState) (why : Stop) (hrun : runOptimization (exBatchMPIBO 2 sp) a fuel (boInit [[0]] none .none) = (s', .done why)) :
    ∃ (r : Results) (σ : Nat → BOState) (B : Nat → Mat) (x : Nat → Vec) (Z : Nat → Mat), s'.results = some r ∧
      BatchIterates exValley 0 a.context [[0]] s' σ B ∧
      ∀ q : ℚ, (∀ k < s'.numAcq, ∃ z ∈ Z k, exValley z ≤ q) →
        JitterBound 1 2 (1 / 100) (fun _ => 0) exBelief σ x s'.numAcq q (exValley [0]) r.fxOpt := by
  have hk : kindsOf exUnitLine = [.continuous 0 1] := by decide +kernel
  have hb : sp.hasBandit = false := by
    have : (designSpace exUnitLine none).map Space.hasBandit = .ok false := by decide +kernel
    rw [h] at this
    simpa [Except.map] using this
  obtain ⟨r, σ, B, x, Z, h1, h2, -, h4⟩ := C183_mpi_run h hb (by rw [hk]; simp [Samplable]) (by rw [hk]; simp)
    (by rw [hk]; intro k hk; exact ⟨0, 1, by simpa using hk⟩) (.random 2) (by simp) false (by simp [GoodEvaluator])
    1 2 exError (1 / 100) zero_le_one (by norm_num) (by have := exError_pos; unfold exError at this ⊢; linarith)
    (fun _ => 0) exBelief exValley
    (fun t ht hne => by rw [hk]; exact exBelief_trusted t ht hne) exMPIEnvs (fun t => ((exMPI_calm sp).calm t).good)
    (fun _ _ => exAcq_good) (fun t n hn => by cases hn; exact ((exMPI_calm sp).calm t).good.nRandom)
    (fun t => nearlyOrders_of_near (exMPI_probability t)) (fun _ => rfl) (by simp) (exBatchMPIBO 2 sp) rfl rfl a
    (by simp [ValidContext, ha]) (fun t c _ k => exStay_descends k _) fuel _ s' why (by
      rw [hk]
      simp [boInit, ObjDomain, ValidObj]) (.inl rfl) hrun [0] (by simp [boInit])
  exact ⟨r, σ, B, x, Z, h1, h2, fun q hq => (h4 q hq).imp id fun h => h.1⟩

end GPyOpt.Props
