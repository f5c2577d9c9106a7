import Verif.Props.NoisyRuns
import Verif.Props.Nested

/-!
# C179: search with batches

The first location of a batch is the one that is suggested alone, so that the bounds of C148 and C177 hold for batches, with one
width per batch.
-/

namespace GPyOpt.Props

open GPyOpt Spec

/-- What the first location of a batch is computed from: local penalization has an acquisition of its own, without penalizers at
first (`batch_local_penalization.py:29-32`). -/
def firstEnv (ev : Evaluator) (env : EvalEnv) : EvalEnv :=
  match ev with
  | .localPenalization _ =>
    { env with
      f := env.fLP { env.lpState with penalizers := none }
      oracle := { env.oracle with acq := env.acqLP 0 } }
  | _ => env

/-- The values of `f` order the locations as those of `g` do. -/
def OrdersLike (f : Vec → Py ℚ) (g : Vec → ℚ) : Prop :=
  ∀ x z v v', f x = .ok v → f z = .ok v' → v ≤ v' → g x ≤ g z

theorem ordersLike_confidence (w : ℚ) (mean dev : Vec → ℚ) :
    OrdersLike (confidenceF w mean dev) fun x => mean x - w * dev x := by
  intro x z v v' h1 h2 h
  simp only [confidenceF, Except.ok.injEq] at h1 h2
  subst h1 h2
  linarith

/-- The first location of a batch, for any acquisition: its computed value is at most that of every new sample. -/
theorem least_first {config : List Desc} {cs : Option (List ConstrDict)} {sp : Space} (h : designSpace config cs = .ok sp)
    (hb : sp.hasBandit = false)
    (hs : ∀ k ∈ kindsOf config, Samplable k) (hvar : kindsOf config ≠ []) (hk : AllCont (kindsOf config))
    (context : Option Context) (hg : ValidContext sp context) (ev : Evaluator) (hev : ∀ n, ev ≠ .thompson n) (env : EvalEnv)
    (hop : GoodOptions env.op) (hacq : GoodAcq (firstEnv ev env).oracle.acq)
    (hlogic : env.op.anchorLogic = "max_objective")
    (hopt : ∀ c, contextManager sp context = .ok c → ∀ k, Descends ((firstEnv ev env).oracle.acq.opt k) c.noncontextBounds)
    (deDup : Bool)
    (hzero : (∃ n, ev = .random n) → deDup = true → ∀ x, ObjDomain (kindsOf config) x → ∃ v ∈ x, v ≠ 0) (X m : Mat)
    (hm : computeNext ev env sp context deDup X none none = .ok m) :
    ∃ x rest Z, m = x :: rest ∧ ObjDomain (kindsOf config) x ∧
      Sampled config sp context (firstEnv ev env).oracle.acq.design env.op.numSamplesObjective Z ∧ Z ≠ [] ∧
      ∀ z ∈ Z, ObjDomain (kindsOf config) z ∧
        (z ∈ X ∨ ∃ u v : ℚ, (firstEnv ev env).f x = .ok u ∧ (firstEnv ev env).f z = .ok v ∧ u ≤ v) := by
  have hkk := space_kinds_eq h
  have step : ∀ (dup : Option DupMgr) (c : Ctx) (f : Vec → Py ℚ) (o : AcqOracle) (r : Vec × ℚ),
      contextManager sp context = .ok c → GoodAcq o → (∀ k, Descends (o.opt k) c.noncontextBounds) →
      acqOptimize sp c dup env.op o f = .ok r →
      ObjDomain (kindsOf config) r.1 ∧ sp.zipInputs [r.1] = .ok [r.1] ∧ ∃ Z,
        Sampled config sp context o.design env.op.numSamplesObjective Z ∧ Z ≠ [] ∧
        ∀ z ∈ Z, ObjDomain (kindsOf config) z ∧ (¬ InDup dup z → ∃ u v : ℚ, f r.1 = .ok u ∧ f z = .ok v ∧ u ≤ v) := by
    intro dup c f o r hc ho hopt hr
    obtain ⟨ds, sp', Y, Z, h1, h2, h3, h4, h5, h6, h7, h8⟩ :=
      as_good_as_design h hb hs hvar hk context hg c hc dup env.op hop hlogic o ho hopt f r hr
    obtain ⟨x, ⟨hx1, hx2, -⟩, -, hx3⟩ := acqOptimize_sound h hb (hkk ▸ hs) (hkk ▸ hvar) hg hc hop ho hr
    have hxe := encodeRow_cont (hkk ▸ hk) hx2.length_eq
    rw [hxe] at hx1
    have hz := zipInputs_encode_all h hb (Z := [x]) (by simp) (by simpa using hx2)
    simp only [List.map_cons, List.map_nil, hxe] at hz
    rw [hkk] at hx2
    subst hx1
    refine ⟨hx2, hz, Z, ⟨c, ds, sp', Y, hc, h1, h2, h3, h4, h5, h6⟩,
      List.ne_nil_of_mem h7.choose_spec.1, fun z hz => ?_⟩
    obtain ⟨y, -, hy, -⟩ := forall₂_mem_right h6 hz
    refine ⟨hy, fun hd => ?_⟩
    obtain ⟨v, hv1, hv2⟩ := h8 z hz hd
    exact ⟨_, v, hx3, hv1, hv2⟩
  have hin : ∀ z, InDup (if deDup = true then some (dupMgr X none none) else none) z → z ∈ X := by
    rintro z ⟨dm, hd1, hd2⟩
    split_ifs at hd1
    cases hd1
    simpa [dupMgr] using hd2
  obtain ⟨c, b, hc, hbt, hzip⟩ := computeNext_cases hm
  have hseq : ∀ (e : EvalEnv) (dd : Bool) (r : Vec × ℚ),
      acqOptimize sp c (if dd = true then some (dupMgr X none none) else none) e.op e.oracle.acq e.f = .ok r →
      sp.zipInputs [r.1] = .ok [r.1] → computeNext .sequential e sp context dd X none none = .ok [r.1] := by
    intro e dd r h1 h2
    unfold computeNext
    simp only [hc, computeBatch, sequentialBatch, h1]
    exact h2
  have fin : ∀ (x : Vec), [x] <+: m → ∃ rest, m = x :: rest := by
    rintro x ⟨rest, hr⟩
    exact ⟨rest, hr.symm⟩
  cases ev with
  | thompson n => exact absurd rfl (hev n)
  | sequential =>
    simp only [firstEnv] at hacq hopt ⊢
    simp only [computeBatch, sequentialBatch] at hbt
    cases hx : acqOptimize sp c (if deDup = true then some (dupMgr X none none) else none) env.op env.oracle.acq env.f with
    | error e => simp [hx] at hbt
    | ok r =>
      obtain ⟨s1, s2, Z, s3, s5, s4⟩ := step _ c _ _ r hc hacq (hopt c hc) hx
      have := hseq env deDup r hx s2
      rw [this] at hm
      cases hm
      exact ⟨r.1, [], Z, rfl, s1, s3, s5, fun z hz =>
        ⟨(s4 z hz).1, or_iff_not_imp_left.2 fun hzX => (s4 z hz).2 fun hi => hzX (hin z hi)⟩⟩
  | random n =>
    simp only [firstEnv] at hacq hopt ⊢
    simp only [computeBatch] at hbt
    obtain ⟨r, hx⟩ : ∃ r, acqOptimize sp c (if deDup = true then some (dupMgr X none none) else none) env.op env.oracle.acq
        env.f = .ok r := by
      cases hx : acqOptimize sp c (if deDup = true then some (dupMgr X none none) else none) env.op env.oracle.acq env.f with
      | ok r => exact ⟨r, rfl⟩
      | error e =>
        cases deDup with
        | false => simp [randomBatch, Bool.false_eq_true] at hx hbt; simp [hx] at hbt
        | true =>
          simp only [if_true] at hx hbt
          simp only [randomBatch, dedupBatch, hx, Except.map] at hbt
          split at hbt <;> simp at hbt
    obtain ⟨s1, s2, Z, s3, s5, s4⟩ := step _ c _ _ r hc hacq (hopt c hc) hx
    obtain ⟨rest, hr⟩ := fin r.1 (C165_sequential_first_partial env sp context deDup X none none (hseq env deDup r hx s2)
      (fun hd => ⟨r.1, by simp, hzero ⟨n, rfl⟩ hd r.1 s1⟩) hm)
    exact ⟨r.1, rest, Z, hr, s1, s3, s5, fun z hz =>
        ⟨(s4 z hz).1, or_iff_not_imp_left.2 fun hzX => (s4 z hz).2 fun hi => hzX (hin z hi)⟩⟩
  | localPenalization n =>
    have hm' : computeNext (.localPenalization n) (firstEnv (.localPenalization n) env) sp context false X none none = .ok m := hm
    have hbt' : computeBatch (.localPenalization n) env sp c none = .ok b := hbt
    obtain ⟨r, hx⟩ : ∃ r, acqOptimize sp c none env.op (env.acqLP 0) (env.fLP { env.lpState with penalizers := none }) =
        .ok r := by
      cases hx : acqOptimize sp c none env.op (env.acqLP 0) (env.fLP { env.lpState with penalizers := none }) with
      | ok r => exact ⟨r, rfl⟩
      | error e =>
        simp only [computeBatch, lpBatch, LPState.update, hx, Except.map] at hbt'
        simp at hbt'
    simp only [firstEnv] at hacq hopt ⊢
    obtain ⟨s1, s2, Z, s3, s5, s4⟩ := step none c _ _ r hc hacq (hopt c hc) hx
    obtain ⟨rest, hr⟩ := fin r.1 (C165_penalized_first_partial (firstEnv (.localPenalization n) env) sp context X none none rfl
      rfl (hseq (firstEnv (.localPenalization n) env) false r hx s2) hm')
    exact ⟨r.1, rest, Z, hr, s1, s3, s5, fun z hz =>
      ⟨(s4 z hz).1, .inr ((s4 z hz).2 (by rintro ⟨dm, hd, -⟩; cases hd))⟩⟩

/-- **C179**, one batch: the evaluators `sequential`, `random` and `local_penalization`, in a space of continuous variables. The
value at the first location exceeds that of no new sample by more than `2 * w * dev` there. With the evaluator `random` and
de-duplication zero is not a location of the domain (C165). -/
theorem C179_step {config : List Desc} {sp : Space} (h : designSpace config none = .ok sp) (hb : sp.hasBandit = false)
    (hs : ∀ k ∈ kindsOf config, Samplable k) (hvar : kindsOf config ≠ []) (hk : AllCont (kindsOf config))
    (context : Option Context) (hg : ValidContext sp context) (ev : Evaluator) (hev : ∀ n, ev ≠ .thompson n) (env : EvalEnv)
    (hop : GoodOptions env.op) (hacq : GoodAcq (firstEnv ev env).oracle.acq)
    (hlogic : env.op.anchorLogic = "max_objective")
    (hopt : ∀ c, contextManager sp context = .ok c → ∀ k, Descends ((firstEnv ev env).oracle.acq.opt k) c.noncontextBounds)
    (w shift scale : ℚ) (mean dev F : Vec → ℚ) (hf : OrdersLike (firstEnv ev env).f fun x => mean x - w * dev x)
    (hcal : Calibrated (kindsOf config) F w shift scale mean dev) (deDup : Bool)
    (hzero : (∃ n, ev = .random n) → deDup = true → ∀ x, ObjDomain (kindsOf config) x → ∃ v ∈ x, v ≠ 0) (X m : Mat)
    (hm : computeNext ev env sp context deDup X none none = .ok m) :
    ∃ x rest Z, m = x :: rest ∧ ObjDomain (kindsOf config) x ∧
      Sampled config sp context (firstEnv ev env).oracle.acq.design env.op.numSamplesObjective Z ∧
      ∀ z ∈ Z, z ∈ X ∨ F x ≤ F z + 2 * w * (scale * dev x) := by
  obtain ⟨x, rest, Z, e1, e2, e3, -, e4⟩ := least_first h hb hs hvar hk context hg ev hev env hop hacq hlogic hopt deDup hzero X m hm
  refine ⟨x, rest, Z, e1, e2, e3, fun z hz => ?_⟩
  obtain ⟨hz1, hz2⟩ := e4 z hz
  refine hz2.imp id fun ⟨u, v, hu, hv, huv⟩ => ?_
  exact calibrated_step hcal e2 hz1 (hf _ _ _ _ hu hv huv)

/-! ## Runs -/

theorem trace_batches {R : Vec → ℚ → Prop} {obj : Nat → Vec → Py ℚ} (hR : ∀ k x y, obj k x = .ok y → R x y) {env : BOEnv}
    {mi mt : Limit} {eps : ℚ} {s s' : BOState} {bs : List (Mat × Vec)} (ht : Trace env obj mi mt eps s bs s')
    (hY : DataRel R s) : ∀ k (hk : k < bs.length), ∃ t, t.numAcq = s.numAcq + k ∧ t.context = s.context ∧
      t.X = s.X ++ batchRows (bs.take k) ∧ DataRel R t ∧ env.suggest t none none = .ok bs[k].1 := by
  induction ht with
  | nil s => intro k hk; simp at hk
  | @cons s s1 s' m ys bs hr hsp ht ih =>
    obtain ⟨ps, fs, hfr⟩ := updateModel_frame (env := env) (s := s) (s1 := (updateModel env s).1)
      (r := (updateModel env s).2) (by rfl)
    intro k hk
    cases k with
    | zero =>
      exact ⟨_, by rw [hfr]; rfl, by rw [hfr], by rw [hfr]; simp [batchRows], by rw [hfr]; exact hY, hsp.suggested⟩
    | succ k =>
      obtain ⟨t, t1, t2, t3, t4, t5⟩ := ih (next_rel hR hr hsp hY) k (by simpa using hk)
      refine ⟨t, by rw [t1, hsp.numAcq]; omega, by rw [t2, hsp.context], ?_, t4, by simpa using t5⟩
      rw [t3, hsp.X]
      simp [batchRows]

/-- The states `σ k` in which a run computes its batches `B k`: `k` batches have been evaluated, the data are the initial locations
and the batches so far, with outputs that differ from the values of `F` by at most `ν`. -/
def BatchIterates (F : Vec → ℚ) (ν : ℚ) (context : Option Context) (X0 : Mat) (s' : BOState) (σ : Nat → BOState)
    (B : Nat → Mat) : Prop :=
  s'.X = X0 ++ ((List.range s'.numAcq).map B).flatten ∧
  ∀ k < s'.numAcq, (σ k).numAcq = k ∧ (σ k).context = context ∧ (σ k).X = X0 ++ ((List.range k).map B).flatten ∧
    DataRel (Noisy F ν) (σ k)

theorem take_range_map {α β : Type} (d : α) (g : α → β) : ∀ (l : List α) (k : Nat), k ≤ l.length →
    (l.take k).map g = (List.range k).map fun i => g (l.getD i d)
  | l, 0, _ => by simp
  | l, k + 1, h => by
    rw [List.range_succ, List.map_append, ← take_range_map d g l k (by omega), List.take_add_one, List.map_append]
    congr 1
    rw [List.getElem?_eq_getElem (by omega)]
    simp [List.getD_eq_getElem?_getD, List.getElem?_eq_getElem (show k < l.length by omega)]

/-- **C179**, a run: acquisition `LCB`, suggestions one at a time, in batches completed at random, or in batches by local
penalization (with any transformation of the acquisition that keeps the order), continuous variables without constraints, any
context, and an objective with noise of at most `ν`. The bounds of C148 and C177 hold for every batch, with the width at its first
location; the average is over the batches. -/
theorem C179_run {config : List Desc} {sp : Space} (h : designSpace config none = .ok sp) (hb : sp.hasBandit = false)
    (hs : ∀ k ∈ kindsOf config, Samplable k) (hvar : kindsOf config ≠ []) (hk : AllCont (kindsOf config))
    (ev : Evaluator) (hev : ∀ n, ev ≠ .thompson n)
    (w : ℚ) (shift scale : BOState → ℚ) (mean dev : BOState → Vec → ℚ) (F : Vec → ℚ) (ν : ℚ)
    (hcal : ∀ t, DataRel (Noisy F ν) t → Calibrated (kindsOf config) F w (shift t) (scale t) (mean t) (dev t))
    (envs : BOState → EvalEnv) (hop : ∀ t, GoodOptions (envs t).op) (hacq : ∀ t, GoodAcq (firstEnv ev (envs t)).oracle.acq)
    (hf : ∀ t, OrdersLike (firstEnv ev (envs t)).f fun x => mean t x - w * dev t x)
    (hlogic : ∀ t, (envs t).op.anchorLogic = "max_objective") (deDup : Bool)
    (hzero : (∃ n, ev = .random n) → deDup = true → ∀ x, ObjDomain (kindsOf config) x → ∃ v ∈ x, v ≠ 0) (env : BOEnv)
    (hsug : env.suggest = stdSuggest sp ev envs deDup)
    {obj : Nat → Vec → Py ℚ} (hnoise : ∀ k x y, obj k x = .ok y → Noisy F ν x y) (hobj : env.obj = some obj)
    (a : RunArgs) (hg : ValidContext sp a.context)
    (hopt : ∀ t c, contextManager sp a.context = .ok c → ∀ k,
      Descends ((firstEnv ev (envs t)).oracle.acq.opt k) c.noncontextBounds)
    (fuel : Nat) (s s' : BOState) (why : Stop) (hY : s.Y = none ∨ DataRel (Noisy F ν) s)
    (hrun : runOptimization env a fuel s = (s', .done why)) :
    ∃ (r : Results) (σ : Nat → BOState) (B : Nat → Mat) (x : Nat → Vec) (Z : Nat → Mat), s'.results = some r ∧
      BatchIterates F ν a.context s.X s' σ B ∧
      (∀ k < s'.numAcq, (B k).head? = some (x k) ∧
        Sampled config sp a.context (firstEnv ev (envs (σ k))).oracle.acq.design (envs (σ k)).op.numSamplesObjective (Z k) ∧
        ∀ z ∈ Z k, r.fxOpt ≤ F z + 2 * w * (scale (σ k) * dev (σ k) (x k)) + ν ∧
          F r.xOpt ≤ F z + 2 * w * (scale (σ k) * dev (σ k) (x k)) + 2 * ν) ∧
      ∀ q, (∀ k < s'.numAcq, ∃ z ∈ Z k, F z ≤ q) →
        s'.numAcq * (F r.xOpt - 2 * ν - q) ≤ 2 * w * ∑ k ∈ Finset.range s'.numAcq, scale (σ k) * dev (σ k) (x k) := by
  obtain ⟨r, r1, -, r2, r3, -⟩ := C177_optimum F ν hnoise env hobj a fuel s s' why hY hrun
  have hmin : ∀ x ∈ s'.X, r.fxOpt ≤ F x + ν := fun x hx => (r3 x hx).1
  obtain ⟨obj', s0, bs, sk, s2, Y, r', ho, hst0, hst, htr, -, hsp, -, -, hs'⟩ := runOptimization_done hrun
  rw [hobj] at ho
  cases ho
  have h0 := start_rel hnoise hY hst0 hst.X
  obtain ⟨ps, fs, rfl⟩ := hsp.frame
  have hX' : s'.X = sk.X := by rw [hs']
  have hn' : s'.numAcq = sk.numAcq := by rw [hs']
  obtain ⟨Y0, new, hY0, -, -⟩ := hst.Y
  obtain ⟨d1, -, -, -, -, d6, -⟩ := htr.data hY0
  rw [hst.numAcq, Nat.zero_add] at d6
  rw [hst.X] at d1
  have hrows : ∀ k ≤ bs.length, batchRows (bs.take k) = ((List.range k).map fun i => (bs.getD i ([], [])).1).flatten := by
    intro k hk
    rw [batchRows, take_range_map ([], []) Prod.fst bs k hk]
  have key : ∀ k, ∃ (t : BOState) (x : Vec) (Z : Mat), k < s'.numAcq →
      (t.numAcq = k ∧ t.context = a.context ∧
        t.X = s.X ++ ((List.range k).map fun i => (bs.getD i ([], [])).1).flatten ∧ DataRel (Noisy F ν) t) ∧
      (bs.getD k ([], [])).1.head? = some x ∧
      Sampled config sp a.context (firstEnv ev (envs t)).oracle.acq.design (envs t).op.numSamplesObjective Z ∧
      ∀ z ∈ Z, r.fxOpt ≤ F z + 2 * w * (scale t * dev t x) + ν := by
    intro k
    by_cases hkn : k < s'.numAcq
    swap
    · exact ⟨s, [], [], fun hh => absurd hh hkn⟩
    have hkb : k < bs.length := by omega
    obtain ⟨t, t1, t2, t3, t4, t5⟩ := trace_batches hnoise htr h0 k hkb
    rw [hst.numAcq, Nat.zero_add] at t1
    rw [hst.context] at t2
    rw [hst.X] at t3
    rw [hsug] at t5
    unfold stdSuggest at t5
    rw [t2] at t5
    obtain ⟨x, rest, Z, hm, hxd, hZ1, hZ2⟩ := C179_step h hb hs hvar hk a.context hg ev hev (envs t) (hop t) (hacq t) (hlogic t)
      (hopt t) w (shift t) (scale t) (mean t) (dev t) F (hf t) (hcal t t4) deDup hzero t.X _ t5
    have hget : bs.getD k ([], []) = bs[k] := by
      simp [List.getD_eq_getElem?_getD, List.getElem?_eq_getElem hkb]
    refine ⟨t, x, Z, fun _ => ⟨⟨t1, t2, by rw [t3, hrows k hkb.le], t4⟩, by rw [hget, hm]; rfl, hZ1, fun z hz => ?_⟩⟩
    rcases hZ2 z hz with hzX | hle
    · have hzX' : z ∈ s'.X := by
        rw [hX', d1]
        rw [t3] at hzX
        rcases List.mem_append.1 hzX with hz' | hz'
        · exact List.mem_append_left _ hz'
        · refine List.mem_append_right _ ?_
          unfold batchRows at hz' ⊢
          obtain ⟨l, hl, hzl⟩ := List.mem_flatten.1 hz'
          obtain ⟨p, hp, e⟩ := List.mem_map.1 hl
          exact List.mem_flatten.2 ⟨l, List.mem_map.2 ⟨p, List.mem_of_mem_take hp, e⟩, hzl⟩
      have h1 := hmin z hzX'
      obtain ⟨hpos, hc⟩ := hcal t t4
      have h2 : 0 ≤ w * dev t x := (abs_nonneg _).trans (hc x hxd)
      have h3 := mul_nonneg hpos.le h2
      linarith
    · have hxX : x ∈ s'.X := by
        rw [hX', d1]
        refine List.mem_append_right _ (List.mem_flatten.2 ⟨bs[k].1, List.mem_map.2 ⟨bs[k], List.getElem_mem _, rfl⟩, ?_⟩)
        rw [hm]
        simp
      have := hmin x hxX
      linarith
  choose σ x Z hkey using key
  have hx : ∀ k < s'.numAcq, ∀ z ∈ Z k, F r.xOpt ≤ F z + 2 * w * (scale (σ k) * dev (σ k) (x k)) + 2 * ν := by
    intro k hk z hz
    have h1 := (hkey k hk).2.2.2 z hz
    have h2 := (abs_le.1 r2).1
    linarith
  refine ⟨r, σ, fun i => (bs.getD i ([], [])).1, x, Z, r1, ⟨?_, fun k hk => (hkey k hk).1⟩,
    fun k hk => ⟨(hkey k hk).2.1, (hkey k hk).2.2.1, fun z hz => ⟨(hkey k hk).2.2.2 z hz, hx k hk z hz⟩⟩, fun q hq => ?_⟩
  · rw [hX', hn', d6, d1, ← hrows _ le_rfl, List.take_length]
  · exact (average_bound s'.numAcq (F r.xOpt - 2 * ν) q w (fun k => scale (σ k) * dev (σ k) (x k)) fun k hk => by
      obtain ⟨z, hz, hzq⟩ := hq k hk
      have := hx k hk z hz
      linarith).1

/-! ## The optimum that is dropped -/

/-- The identity as an objective. -/
def exRise (x : Vec) : ℚ := x.headD 0

/-- A local optimizer that tries zero. -/
def exTryZero (g : Vec → Py ℚ) (x : Vec) : Py Vec :=
  match g (x.map fun _ => 0), g x with
  | .ok v, .ok v' => if v ≤ v' then .ok (x.map fun _ => 0) else .ok x
  | _, _ => .ok x

theorem exTryZero_descends {b : Bounds} (hb : ∀ x, InBox b x → InBox b (x.map fun _ => 0)) : Descends exTryZero b := by
  intro g x y hx hy
  unfold exTryZero at hy
  split at hy
  · rename_i v v' h1 h2
    split_ifs at hy with hle
    · cases hy
      exact ⟨hb x hx, fun v0 h0 => ⟨v, h1, by rw [h2] at h0; cases h0; exact hle⟩⟩
    · cases hy
      exact ⟨hx, fun v0 h0 => ⟨v0, h0, le_rfl⟩⟩
  · cases hy
    exact ⟨hx, fun v0 h0 => ⟨v0, h0, le_rfl⟩⟩

def exRiseEnv : EvalEnv :=
  { exEnv with
    f := confidenceF 2 exRise fun _ => 0
    oracle := ⟨{ exAcq with opt := fun _ => exTryZero }, exAcq⟩
    numSamplesRandom := 2 }

/-- **C179** (negation without `hzero`): the model knows the objective. The optimum is zero, which is suggested alone; in a batch
without duplicates it is dropped (`evaluators/base.py:60`), and both locations of the batch exceed the best sample, although the
widths are zero. -/
theorem C179_dropped_counterexample :
    Calibrated (kindsOf exUnitLine) exRise 2 0 1 exRise (fun _ => 0) ∧
    ((designSpace exUnitLine none).bind fun sp => (contextManager sp none).bind fun c =>
      anchorSamples sp (some c) false "random" 4 exAcq.design) = .ok [[1/2], [1/3], [1/4], [1/5]] ∧
    ((designSpace exUnitLine none).bind fun sp => computeNext .sequential exRiseEnv sp none true [[1]] none none) =
      .ok [[0]] ∧
    ((designSpace exUnitLine none).bind fun sp => computeNext (.random 2) exRiseEnv sp none true [[1]] none none) =
      .ok [[1/3], [1/2]] ∧
    ((designSpace exUnitLine none).bind fun sp => computeNext (.random 2) exRiseEnv sp none false [[1]] none none) =
      .ok [[0], [1/2]] := by
  refine ⟨⟨one_pos, fun x _ => by simp⟩, ?_, ?_, ?_, ?_⟩ <;> decide +kernel

/-! ## Examples -/

def exBatchBO (n : Nat) (sp : Space) : BOEnv :=
  { exShakyBO sp with suggest := stdSuggest sp (.random n) exNoisyEnvs false }

/-- The hypotheses of `C179_run`, and therefore those of `C179_step`, are met by search with Lipschitz bounds and batches. -/
example (n : Nat) {sp : Space} (h : designSpace exUnitLine none = .ok sp) (a : RunArgs) (ha : a.context = none) (fuel : Nat)
    (s' : BOState) (why : Stop) (hrun : runOptimization (exBatchBO n sp) a fuel (boInit [[0]] none .none) = (s', .done why)) :
    ∃ (r : Results) (σ : Nat → BOState) (B : Nat → Mat) (x : Nat → Vec) (Z : Nat → Mat), s'.results = some r ∧
      BatchIterates exValley (1/10) a.context [[0]] s' σ B ∧
      ∀ k < s'.numAcq, ∀ z ∈ Z k, exValley r.xOpt ≤ exValley z + 2 * 1 * (1 * (exHalf (σ k) (x k) + 1/10)) + 2 * (1/10) := by
  have hk : kindsOf exUnitLine = [.continuous 0 1] := by decide +kernel
  have hb : sp.hasBandit = false := by
    have : (designSpace exUnitLine none).map Space.hasBandit = .ok false := by decide +kernel
    rw [h] at this
    simpa [Except.map] using this
  obtain ⟨r, σ, B, x, Z, h1, h2, h3, -⟩ := C179_run h hb (by rw [hk]; simp [Samplable]) (by rw [hk]; simp)
    (by rw [hk]; intro k hk; exact ⟨0, 1, by simpa using hk⟩) (.random n) (by simp) 1 (fun _ => 0) (fun _ => 1) exMid
    (fun t x => exHalf t x + 1/10) exValley (1/10) (fun t ht => by rw [hk]; exact exNoisyLip_calibrated t ht) exNoisyEnvs
    (fun _ => ⟨by simp [exNoisyEnvs, exEnv], by simp [exNoisyEnvs, exEnv], by simp [exNoisyEnvs, exEnv]⟩)
    (fun _ => exStay_good) (fun _ => ordersLike_confidence _ _ _)
    (fun _ => by simp [exNoisyEnvs, exEnv]) false (by simp) (exBatchBO n sp) rfl exShaky_noisy rfl a
    (by simp [ValidContext, ha]) (fun t c _ k => exStay_descends k _) fuel _ s' why (.inl rfl) hrun
  exact ⟨r, σ, B, x, Z, h1, h2, fun k hk z hz => ((h3 k hk).2.2 z hz).2⟩

/-- Two batches. -/
example : ((designSpace exUnitLine none).map fun sp =>
      let r := runOptimization (exBatchBO 2 sp) { maxIter := some (.fin 2), maxTime := none, eps := -1 } 10
        (boInit [[0]] none .none)
      (r.2, r.1.X, r.1.Y, r.1.results.map Results.fxOpt))
    = .ok (.done .limit, [[0], [1/2], [1/2], [1/2], [1/2]], some [3/5, -1/10, 1/10, -1/10, 1/10], some (-1/10)) := by
  decide +kernel

/-- Local penalization with the acquisition tripled, which keeps the order. -/
example (mean dev : Vec → ℚ) (env : EvalEnv)
    (hf : env.fLP { env.lpState with penalizers := none } = fun x => .ok (3 * (mean x - 2 * dev x))) (n : Nat) :
    OrdersLike (firstEnv (.localPenalization n) env).f fun x => mean x - 2 * dev x := by
  intro x z v v' h1 h2 h
  simp only [firstEnv, hf, Except.ok.injEq] at h1 h2
  subst h1 h2
  linarith

end GPyOpt.Props
