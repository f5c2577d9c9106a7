import Verif.Props.RandomSearch
import Verif.Props.LocalOptimizer
import Verif.Model.AcqCost

/-!
# The regret of search by confidence bounds

If the intervals `mean ± w * dev` of the model contain the objective, then the acquisition `LCB` with the weight `w` suggests
locations whose value exceeds the best sampled value by at most `2 * w * dev` there.
-/

namespace GPyOpt

open Spec Props

/-- What is minimized with the acquisition `LCB` in a space without constraints: `acquisition_function` (`LCB.py:35-41`,
`acquisitions/base.py:33-40`) with the indicator 1 and the cost 1, for the predictions `mean` and `dev` of the model. -/
def confidenceF (w : ℚ) (mean dev : Vec → ℚ) (x : Vec) : Py ℚ := .ok (-((-mean x + w * dev x) * 1) / 1)

/-- It is the acquisition of the model of `LCB.py` over the reals. -/
theorem confidenceF_lcb (w : ℚ) (mean dev : Vec → ℚ) (x : Vec) (c : ℝ) :
    ∃ v : ℚ, confidenceF w mean dev x = .ok v ∧ (v : ℝ) = lcbAcquisition w (mean x) (dev x) 1 c := by
  refine ⟨_, rfl, ?_⟩
  simp only [lcbAcquisition, weightedAcq, lcbValue]
  push_cast
  ring

namespace Props

/-- `Z` are the locations the search for the optimum of the acquisition starts from: `N` rows of a random design of the
variables that have no context value, completed by the context. -/
def Sampled (config : List Desc) (sp : Space) (context : Option Context) (o : DesignOracle) (N : Nat) (Z : Mat) : Prop :=
  ∃ (c : Ctx) (ds : List Desc) (sp' : Space) (Y : Mat), contextManager sp context = .ok c ∧
    designSpace ds sp.constraints = .ok sp' ∧ sp'.hasBandit = false ∧ sp'.kinds = keep (freePos c) 0 sp.kinds ∧
    initialDesign "random" sp' o N = .ok Y ∧ Y.length = N ∧
    List.Forall₂ (fun y z => ObjDomain (kindsOf config) z ∧ HasContext sp context z ∧ keep (freePos c) 0 z = y) Y Z

/-- The intervals of the model contain the objective, which is standardized by `shift` and `scale`. -/
def Calibrated (ks : List Kind) (F : Vec → ℚ) (w shift scale : ℚ) (mean dev : Vec → ℚ) : Prop :=
  0 < scale ∧ ∀ x, ObjDomain ks x → |(F x - shift) / scale - mean x| ≤ w * dev x

theorem calibrated_step {ks : List Kind} {F : Vec → ℚ} {w shift scale : ℚ} {mean dev : Vec → ℚ}
    (hcal : Calibrated ks F w shift scale mean dev) {x z : Vec} (hx : ObjDomain ks x) (hz : ObjDomain ks z)
    (hle : mean x - w * dev x ≤ mean z - w * dev z) : F x ≤ F z + 2 * w * (scale * dev x) := by
  obtain ⟨hs, hc⟩ := hcal
  have h1 := (abs_le.1 (hc x hx)).2
  have h2 := (abs_le.1 (hc z hz)).1
  have h3 : (F x - shift) / scale ≤ (F z - shift) / scale + 2 * w * dev x := by linarith
  have h4 := mul_le_mul_of_nonneg_right h3 hs.le
  rw [add_mul, div_mul_cancel₀ _ hs.ne', div_mul_cancel₀ _ hs.ne'] at h4
  linarith

/-- **C148**, one step: the suggestion of the acquisition optimizer in a space of continuous variables. The value of the
objective there exceeds that of no unknown sample by more than `2 * w * dev`. -/
theorem C148_step {config : List Desc} {sp : Space} (h : designSpace config none = .ok sp) (hb : sp.hasBandit = false)
    (hs : ∀ k ∈ kindsOf config, Samplable k) (hvar : kindsOf config ≠ []) (hk : AllCont (kindsOf config))
    (context : Option Context) (hg : ValidContext sp context) (c : Ctx) (hc : contextManager sp context = .ok c)
    (dup : Option DupMgr) (op : AcqOptions) (hop : GoodOptions op) (hlogic : op.anchorLogic = "max_objective")
    (o : AcqOracle) (ho : GoodAcq o) (hopt : ∀ k, Descends (o.opt k) c.noncontextBounds)
    (w shift scale : ℚ) (mean dev F : Vec → ℚ) (hcal : Calibrated (kindsOf config) F w shift scale mean dev)
    (r : Vec × ℚ) (hr : acqOptimize sp c dup op o (confidenceF w mean dev) = .ok r) :
    ObjDomain (kindsOf config) r.1 ∧ ∃ Z : Mat, Sampled config sp context o.design op.numSamplesObjective Z ∧
      (∃ z ∈ Z, ¬ InDup dup z) ∧ ∀ z ∈ Z, ¬ InDup dup z → F r.1 ≤ F z + 2 * w * (scale * dev r.1) := by
  obtain ⟨ds, sp', Y, Z, h1, h2, h3, h4, h5, h6, h7, h8⟩ :=
    as_good_as_design h hb hs hvar hk context hg c hc dup op hop hlogic o ho hopt _ r hr
  have hkk := space_kinds_eq h
  obtain ⟨x, ⟨hx1, hx2, -⟩, -, hx3⟩ := acqOptimize_sound h hb (hkk ▸ hs) (hkk ▸ hvar) hg hc hop ho hr
  rw [encodeRow_cont (hkk ▸ hk) hx2.length_eq] at hx1
  rw [hkk] at hx2
  subst hx1
  refine ⟨hx2, Z, ⟨c, ds, sp', Y, hc, h1, h2, h3, h4, h5, h6⟩, h7, fun z hz hd => ?_⟩
  obtain ⟨v, hv1, hv2⟩ := h8 z hz hd
  obtain ⟨y, -, hy, -⟩ := forall₂_mem_right h6 hz
  simp only [confidenceF, Except.ok.injEq] at hx3 hv1
  refine calibrated_step hcal hx2 hy ?_
  rw [← hx3, ← hv1] at hv2
  linarith

theorem confidence_suggestion {config : List Desc} {sp : Space} (h : designSpace config none = .ok sp)
    (hb : sp.hasBandit = false) (hs : ∀ k ∈ kindsOf config, Samplable k) (hvar : kindsOf config ≠ [])
    (hk : AllCont (kindsOf config)) {context : Option Context} (hg : ValidContext sp context) {env : EvalEnv}
    (henv : GoodEnv env) (hlogic : env.op.anchorLogic = "max_objective")
    (hopt : ∀ c, contextManager sp context = .ok c → ∀ k, Descends (env.oracle.acq.opt k) c.noncontextBounds)
    {w shift scale : ℚ} {mean dev F : Vec → ℚ} (hf : env.f = confidenceF w mean dev)
    (hcal : Calibrated (kindsOf config) F w shift scale mean dev) {deDup : Bool} {X : Mat} {m : Mat}
    (hm : computeNext .sequential env sp context deDup X none none = .ok m) :
    ∃ x Z, m = [x] ∧ ObjDomain (kindsOf config) x ∧
      Sampled config sp context env.oracle.acq.design env.op.numSamplesObjective Z ∧
      ∀ z ∈ Z, z ∈ X ∨ F x ≤ F z + 2 * w * (scale * dev x) := by
  obtain ⟨c, b, hc, hbt, hzip⟩ := computeNext_cases hm
  simp only [computeBatch, sequentialBatch] at hbt
  generalize hdup : (if deDup = true then some (dupMgr X none none) else none) = dup at hbt
  cases hx : acqOptimize sp c dup env.op env.oracle.acq env.f with
  | error e => simp [hx] at hbt
  | ok r =>
    obtain ⟨x, v⟩ := r
    simp only [hx, Except.ok.injEq] at hbt
    subst hbt
    rw [hf] at hx
    obtain ⟨h1, Z, h2, -, h4⟩ := C148_step h hb hs hvar hk context hg c hc dup env.op henv.op hlogic env.oracle.acq henv.acq
      (hopt c hc) w shift scale mean dev F hcal (x, v) hx
    have hkk := space_kinds_eq h
    have hxe : encodeRow sp.kinds x = x := encodeRow_cont (hkk ▸ hk) (by rw [hkk]; exact h1.length_eq)
    have := zipInputs_encode_all h hb (Z := [x]) (by simp) (by simpa [hkk] using h1)
    simp only [List.map_cons, List.map_nil, hxe] at this
    rw [this] at hzip
    simp only [Except.ok.injEq] at hzip
    refine ⟨x, Z, hzip.symm, h1, h2, fun z hz => ?_⟩
    by_cases hd : InDup dup z
    · left
      obtain ⟨dm, hd1, hd2⟩ := hd
      rw [← hdup] at hd1
      split_ifs at hd1
      cases hd1
      simpa [dupMgr] using hd2
    · exact .inr (h4 z hz hd)

/-- The states `σ k` in which a run makes its suggestions `x k`: `k` suggestions have been made, and the data are the `n0`
initial locations and the suggestions so far, with the values of the objective. -/
def Iterates (F : Vec → ℚ) (context : Option Context) (n0 : Nat) (s' : BOState) (σ : Nat → BOState) (x : Nat → Vec) : Prop :=
  ∀ k < s'.numAcq, (σ k).numAcq = k ∧ (σ k).context = context ∧ (σ k).X = s'.X.take (n0 + k) ∧
    (σ k).Y = some ((σ k).X.map F) ∧ s'.X[n0 + k]? = some (x k)

theorem trace_states {env : BOEnv} {f : Vec → ℚ} {mi mt : Limit} {eps : ℚ} {s s' : BOState} {bs : List (Mat × Vec)}
    (ht : Trace env (fun _ x => .ok (f x)) mi mt eps s bs s') (hY : s.Y = some (s.X.map f))
    (h1 : ∀ t m, t.context = s.context → t.Y = some (t.X.map f) → env.suggest t none none = .ok m → m.length = 1) :
    ∀ k < bs.length, ∃ t x, t.numAcq = s.numAcq + k ∧ t.context = s.context ∧ t.X.length = s.X.length + k ∧
      t.Y = some (t.X.map f) ∧ env.suggest t none none = .ok [x] ∧ t.X ++ [x] <+: s'.X := by
  induction ht with
  | nil s => intro k hk; simp at hk
  | @cons s s1 s' m ys bs hr hsp ht ih =>
    obtain ⟨ps, fs, hfr⟩ := updateModel_frame (env := env) (s := s) (s1 := (updateModel env s).1)
      (r := (updateModel env s).2) (by rfl)
    have hm1 : m.length = 1 := h1 _ m (by rw [hfr]) (by rw [hfr]; exact hY) hsp.suggested
    obtain ⟨x, rfl⟩ := List.length_eq_one_iff.1 hm1
    intro k hk
    cases k with
    | zero =>
      refine ⟨_, x, by rw [hfr]; rfl, by rw [hfr], by rw [hfr]; rfl, by rw [hfr]; exact hY, hsp.suggested, ?_⟩
      have : ((updateModel env s).1).X = s.X := by rw [hfr]
      rw [this, ← hsp.X]
      exact trace_prefix ht
    | succ k =>
      have hY1 : s1.Y = some (s1.X.map f) := by
        obtain ⟨Y, hY0, hY1⟩ := hsp.Y
        rw [hY] at hY0
        cases hY0
        rw [hY1, hsp.X, round_values hr hsp, List.map_append]
      obtain ⟨t, x', t1, t2, t3, t4⟩ := ih hY1 (fun t m ht => h1 t m (by rw [ht, hsp.context])) k (by simpa using hk)
      refine ⟨t, x', by rw [t1, hsp.numAcq]; omega, by rw [t2, hsp.context], ?_, t4⟩
      rw [t3, hsp.X, List.length_append]
      simp only [List.length_cons, List.length_nil]
      omega

theorem average_bound (K : Nat) (v q w : ℚ) (d : Nat → ℚ) (hd : ∀ k < K, v ≤ q + 2 * w * d k) :
    K * (v - q) ≤ 2 * w * ∑ k ∈ Finset.range K, d k ∧
    (q ≤ v → K * (v - q) ^ 2 ≤ 4 * w ^ 2 * ∑ k ∈ Finset.range K, d k ^ 2) := by
  constructor
  · rw [Finset.mul_sum]
    have : ∑ k ∈ Finset.range K, (v - q) ≤ ∑ k ∈ Finset.range K, 2 * w * d k :=
      Finset.sum_le_sum fun k hk => by linarith [hd k (Finset.mem_range.1 hk)]
    rwa [Finset.sum_const, Finset.card_range, nsmul_eq_mul] at this
  · intro hq
    rw [Finset.mul_sum]
    have : ∑ k ∈ Finset.range K, (v - q) ^ 2 ≤ ∑ k ∈ Finset.range K, 4 * w ^ 2 * d k ^ 2 :=
      Finset.sum_le_sum fun k hk => by
        have h1 := hd k (Finset.mem_range.1 hk)
        calc (v - q) ^ 2 ≤ (2 * w * d k) ^ 2 := pow_le_pow_left₀ (by linarith) (by linarith) 2
          _ = 4 * w ^ 2 * d k ^ 2 := by ring
    rwa [Finset.sum_const, Finset.card_range, nsmul_eq_mul] at this

/-- **C148**, a run: acquisition `LCB`, suggestions one at a time, continuous variables without constraints, any context, with
or without de-duplication, and a model whose intervals contain the objective whenever its data are values of the objective.
The reported optimum exceeds the value of every location sampled in iteration `k` by at most `2 * w * dev` at the suggestion of
this iteration. Hence, if every iteration samples a value of at most `q`, the average of the widths bounds the excess over `q`,
and the average of their squares its square. -/
theorem C148_run {config : List Desc} {sp : Space} (h : designSpace config none = .ok sp) (hb : sp.hasBandit = false)
    (hs : ∀ k ∈ kindsOf config, Samplable k) (hvar : kindsOf config ≠ []) (hk : AllCont (kindsOf config))
    (w : ℚ) (shift scale : BOState → ℚ) (mean dev : BOState → Vec → ℚ) (F : Vec → ℚ)
    (hcal : ∀ t, t.Y = some (t.X.map F) → Calibrated (kindsOf config) F w (shift t) (scale t) (mean t) (dev t))
    (envs : BOState → EvalEnv) (henvs : ∀ t, GoodEnv (envs t)) (hf : ∀ t, (envs t).f = confidenceF w (mean t) (dev t))
    (hlogic : ∀ t, (envs t).op.anchorLogic = "max_objective") (deDup : Bool) (env : BOEnv)
    (hsug : env.suggest = stdSuggest sp .sequential envs deDup) (hobj : env.obj = some fun _ x => .ok (F x))
    (a : RunArgs) (hg : ValidContext sp a.context)
    (hopt : ∀ t c, contextManager sp a.context = .ok c → ∀ k, Descends ((envs t).oracle.acq.opt k) c.noncontextBounds)
    (fuel : Nat) (s s' : BOState) (why : Stop) (hY : s.Y = none ∨ s.Y = some (s.X.map F))
    (hrun : runOptimization env a fuel s = (s', .done why)) :
    ∃ (r : Results) (σ : Nat → BOState) (x : Nat → Vec) (Z : Nat → Mat), s'.results = some r ∧
      Iterates F a.context s.X.length s' σ x ∧
      (∀ k < s'.numAcq, Sampled config sp a.context (envs (σ k)).oracle.acq.design (envs (σ k)).op.numSamplesObjective (Z k) ∧
        ∀ z ∈ Z k, r.fxOpt ≤ F z + 2 * w * (scale (σ k) * dev (σ k) (x k))) ∧
      ∀ q, (∀ k < s'.numAcq, ∃ z ∈ Z k, F z ≤ q) →
        s'.numAcq * (r.fxOpt - q) ≤ 2 * w * ∑ k ∈ Finset.range s'.numAcq, scale (σ k) * dev (σ k) (x k) ∧
        (q ≤ r.fxOpt → s'.numAcq * (r.fxOpt - q) ^ 2 ≤
          4 * w ^ 2 * ∑ k ∈ Finset.range s'.numAcq, (scale (σ k) * dev (σ k) (x k)) ^ 2) := by
  obtain ⟨r, Y, i, r1, r2, r3, -⟩ := C39_reported_optimum _ a fuel s s' _ hrun
  have hv := run_values hobj hY hrun
  rw [r2] at hv
  cases hv
  have hmin : ∀ x ∈ s'.X, r.fxOpt ≤ F x := fun x hx => r3.2 _ (List.mem_map_of_mem hx)
  have key : ∀ k, ∃ (t : BOState) (x : Vec) (Z : Mat), k < s'.numAcq →
      (t.numAcq = k ∧ t.context = a.context ∧ t.X = s'.X.take (s.X.length + k) ∧
        t.Y = some (t.X.map F) ∧ s'.X[s.X.length + k]? = some x) ∧
      Sampled config sp a.context (envs t).oracle.acq.design (envs t).op.numSamplesObjective Z ∧
      ∀ z ∈ Z, r.fxOpt ≤ F z + 2 * w * (scale t * dev t x) := by
    intro k
    by_cases hkn : k < s'.numAcq
    swap
    · exact ⟨s, [], [], fun hh => absurd hh hkn⟩
    obtain ⟨obj, s0, bs, sk, s2, Y, r', ho, hst0, hst, htr, -, hsp, -, -, rfl⟩ := runOptimization_done hrun
    rw [hobj] at ho
    cases ho
    have h0 := values_start hY hst0
    rw [← hst.X] at h0
    obtain ⟨ps, fs, rfl⟩ := hsp.frame
    have hsugg : ∀ (t : BOState) (m : Mat), t.context = s0.context → t.Y = some (t.X.map F) →
        env.suggest t none none = .ok m → ∃ x Z, m = [x] ∧ ObjDomain (kindsOf config) x ∧
        Sampled config sp a.context (envs t).oracle.acq.design (envs t).op.numSamplesObjective Z ∧
        ∀ z ∈ Z, z ∈ t.X ∨ F x ≤ F z + 2 * w * (scale t * dev t x) := by
      intro t m t1 t2 t3
      rw [hsug] at t3
      unfold stdSuggest at t3
      rw [t1, hst.context] at t3
      exact confidence_suggestion h hb hs hvar hk hg (henvs t) (hlogic t) (hopt t) (hf t) (hcal t t2) t3
    have hkb : k < bs.length := by
      obtain ⟨Y0, new, hY0, -, -⟩ := hst.Y
      obtain ⟨-, -, -, -, -, d6, -⟩ := htr.data hY0
      rw [hst.numAcq] at d6
      have hk' : k < sk.numAcq := hkn
      omega
    obtain ⟨t, x, t1, t2, t3, t4, t5, t6⟩ := trace_states htr h0 (fun t m e1 e2 e3 => by
      obtain ⟨x, Z, rfl, -⟩ := hsugg t m e1 e2 e3
      rfl) k hkb
    obtain ⟨x', Z, hx', hxd, hZ1, hZ2⟩ := hsugg t _ t2 t4 t5
    simp only [List.cons.injEq, and_true] at hx'
    subst hx'
    rw [hst.numAcq, Nat.zero_add] at t1
    rw [hst.context] at t2
    rw [hst.X] at t3
    obtain ⟨tl, htl⟩ := t6
    refine ⟨t, x, Z, fun _ => ⟨⟨t1, t2, ?_, t4, ?_⟩, hZ1, fun z hz => ?_⟩⟩
    · show t.X = sk.X.take (s.X.length + k)
      rw [← htl, ← t3, List.append_assoc, List.take_left]
    · show sk.X[s.X.length + k]? = some x
      rw [← htl, ← t3, List.append_assoc, List.getElem?_append_right (le_refl _)]
      simp
    · have hxX : x ∈ sk.X := by rw [← htl]; simp
      rcases hZ2 z hz with hzX | hle
      · have hzX' : z ∈ sk.X := by rw [← htl]; simp [hzX]
        have h1 := hmin z hzX'
        obtain ⟨hpos, hc⟩ := hcal t t4
        have h2 : 0 ≤ w * dev t x := (abs_nonneg _).trans (hc x hxd)
        have h3 := mul_nonneg hpos.le h2
        linarith
      · exact (hmin x hxX).trans hle
  choose σ x Z hkey using key
  refine ⟨r, σ, x, Z, r1, fun k hk => (hkey k hk).1, fun k hk => (hkey k hk).2, fun q hq => ?_⟩
  refine average_bound s'.numAcq r.fxOpt q w (fun k => scale (σ k) * dev (σ k) (x k)) fun k hk => ?_
  obtain ⟨z, hz, hzq⟩ := hq k hk
  have := (hkey k hk).2.2 z hz
  linarith

/-- Without context and constraints the samples are the rows drawn. -/
theorem sampled_draws {config : List Desc} {sp : Space} (h : designSpace config none = .ok sp) {M N : Nat}
    (junk : Nat → Nat → ℚ) (w : Fin 1 → Fin N → RawRow M sp.kinds) {Z : Mat}
    (hZ : Sampled config sp none (oracleOf junk w) N Z) : Z = List.ofFn fun r => rawRow (w 0 r) := by
  obtain ⟨c, ds, sp', Y, h1, h2, h3, h4, h5, h6, h7⟩ := hZ
  have hfree : ∀ i, freePos c i = true := by
    intro i
    simp [freePos, contextManager_none h1]
  rw [keep_true hfree] at h4
  obtain ⟨_, _, _, _, _, _, hc⟩ := designSpace_ok h
  rw [hc] at h2
  rw [← design_first h2 h3 h4 junk w h5]
  clear h5 h6
  induction h7 with
  | nil => rfl
  | cons hh _ ih => rw [ih, ← hh.2.2, keep_true hfree]

open Classical in
/-- The share of the draws of which every iteration has a row in `G`. -/
theorem share_hit (M K N : Nat) (ks : List Kind) (G : Vec → Prop) :
    ((Finset.univ.filter fun ω : Draws M K 1 N ks => ∀ k, ∃ r, G (rawRow (ω k 0 r))).card : ℝ) /
      Fintype.card (Draws M K 1 N ks) = (1 - (1 - targetRatio M ks none G) ^ N) ^ K := by
  obtain ⟨B, hB⟩ : ∃ B : RawRow M ks → Prop, ∀ x, B x ↔ ¬ G (rawRow x) := ⟨_, fun _ => Iff.rfl⟩
  obtain ⟨E, hE⟩ : ∃ E : (Fin 1 → Fin N → RawRow M ks) → Prop, ∀ w, E w ↔ ∃ r, G (rawRow (w 0 r)) := ⟨_, fun _ => Iff.rfl⟩
  have h1 : (Finset.univ.filter fun ω : Draws M K 1 N ks => ∀ k, ∃ r, G (rawRow (ω k 0 r))).card =
      (Finset.univ.filter E).card ^ K := by
    rw [← card_avoid E K]
    congr 1
    ext ω
    rw [Finset.mem_filter_univ, Finset.mem_filter_univ]
    exact forall_congr' fun k => (hE _).symm
  have h2 : (Finset.univ.filter fun w => ¬ E w).card = (Finset.univ.filter B).card ^ N := by
    obtain ⟨V, hV⟩ : ∃ V : (Fin N → RawRow M ks) → Prop, ∀ v, V v ↔ ∀ r, B (v r) := ⟨_, fun _ => Iff.rfl⟩
    have h21 := card_avoid V 1
    have h22 : Finset.univ.filter V = Finset.univ.filter fun v : Fin N → RawRow M ks => ∀ r, B (v r) := by
      ext v
      rw [Finset.mem_filter_univ, Finset.mem_filter_univ, hV]
    rw [h22, card_avoid B N, pow_one] at h21
    rw [← h21]
    congr 1
    ext w
    rw [Finset.mem_filter_univ, Finset.mem_filter_univ, hE]
    constructor
    · intro hn k
      have : k = 0 := Subsingleton.elim _ _
      subst this
      exact (hV _).2 fun r => (hB _).2 fun hG => hn ⟨r, hG⟩
    · rintro hn ⟨r, hr⟩
      exact (hB _).1 ((hV _).1 (hn 0) r) hr
  have h3 := Finset.card_filter_add_card_filter_not (s := (Finset.univ : Finset (Fin 1 → Fin N → RawRow M ks))) E
  rw [h2, Finset.card_univ] at h3
  have h4 := Finset.card_filter_add_card_filter_not (s := (Finset.univ : Finset (RawRow M ks))) fun x => G (rawRow x)
  have h5 : (Finset.univ.filter fun x : RawRow M ks => ¬ G (rawRow x)) = Finset.univ.filter B := by
    ext x
    rw [Finset.mem_filter_univ, Finset.mem_filter_univ, hB]
  rw [h5, Finset.card_univ] at h4
  have h6 : targetRatio M ks none G =
      ((Finset.univ.filter fun x : RawRow M ks => G (rawRow x)).card : ℝ) / Fintype.card (RawRow M ks) := by
    unfold targetRatio
    simp [Allowed]
  rw [h1, h6]
  have hT1 : Fintype.card (Fin 1 → Fin N → RawRow M ks) = Fintype.card (RawRow M ks) ^ N := by
    simp only [Fintype.card_pi, Finset.prod_const, Finset.card_univ, Fintype.card_fin, pow_one]
  have hT : Fintype.card (Draws M K 1 N ks) = (Fintype.card (RawRow M ks) ^ N) ^ K := by
    simp only [Fintype.card_pi, Finset.prod_const, Finset.card_univ, Fintype.card_fin, pow_one]
  rw [hT1] at h3
  rw [hT]
  generalize (Finset.univ.filter fun x : RawRow M ks => G (rawRow x)).card = g at h4
  generalize (Finset.univ.filter B).card = b at h3 h4
  generalize (Finset.univ.filter E).card = e at h3
  generalize Fintype.card (RawRow M ks) = T at h3 h4
  push_cast
  rw [← div_pow]
  congr 1
  have h3' : (e : ℝ) = (T : ℝ) ^ N - (b : ℝ) ^ N := by
    rw [eq_sub_iff_add_eq]
    exact_mod_cast h3
  have h4' : (b : ℝ) = T - g := by
    rw [eq_sub_iff_add_eq, add_comm]
    exact_mod_cast h4
  by_cases hT0 : (T : ℝ) = 0
  · have hg : g = 0 := by
      have : T = 0 := by exact_mod_cast hT0
      omega
    have hb : b = 0 := by
      have : T = 0 := by exact_mod_cast hT0
      omega
    subst hg hb
    rw [h3', hT0]
    simp
  · rw [h3', h4', sub_div, div_self (pow_ne_zero _ hT0), ← div_pow, sub_div, div_self hT0]

/-- The samples of the acquisition optimizer in iteration `k` are `N` rows drawn from `o k`; everything else is as in
`envs`. -/
def confEnvs (N : Nat) (o : Nat → DesignOracle) (envs : BOState → EvalEnv) (s : BOState) : EvalEnv :=
  { envs s with
    op := { (envs s).op with numSamplesObjective := N }
    oracle := { (envs s).oracle with acq := { (envs s).oracle.acq with design := o s.numAcq } } }

/-- An optimizer that suggests one location at a time, without de-duplication. -/
def confBO (env : BOEnv) (sp : Space) (N : Nat) (o : Nat → DesignOracle) (envs : BOState → EvalEnv) : BOEnv :=
  { env with suggest := stdSuggest sp .sequential (confEnvs N o envs) false }

theorem goodEnv_conf {N : Nat} (hN : 0 < N) {o : Nat → DesignOracle} (ho : ∀ k, UnitOracle (o k))
    {envs : BOState → EvalEnv} (henvs : ∀ s, GoodEnv (envs s)) (s : BOState) : GoodEnv (confEnvs N o envs s) where
  op := ⟨hN, (henvs s).op.nThompson, (henvs s).op.nAnchor⟩
  acq := ⟨ho _, (henvs s).acq.argsort, (henvs s).acq.thompson, (henvs s).acq.opt⟩
  batch := (henvs s).batch
  nRandom := (henvs s).nRandom
  nThompson := (henvs s).nThompson

theorem calm_conf {sp : Space} {N : Nat} (hN : 0 < N) {env : BOEnv} {envs : BOState → EvalEnv}
    (hr : CalmBO sp .sequential false { env with suggest := stdSuggest sp .sequential envs false } envs)
    {o : Nat → DesignOracle} (ho : ∀ k, UnitOracle (o k)) :
    CalmBO sp .sequential false (confBO env sp N o envs) (confEnvs N o envs) where
  space := hr.space
  suggest := rfl
  fit := hr.fit
  params := hr.params
  costFit := hr.costFit
  interval := hr.interval
  calm := fun s =>
    let c := hr.calm s
    { good := goodEnv_conf hN ho (fun s => (hr.calm s).good) s
      name := c.name
      logic := c.logic
      f := c.f
      opt := c.opt
      thompson := c.thompson
      batchOpt := c.batchOpt
      batchThompson := c.batchThompson
      lp := c.lp
      lpOpt := c.lpOpt
      lpThompson := c.lpThompson
      fLP := c.fLP
      consts := c.consts }
  samples := by
    intro s n hn
    cases hn
  obj := hr.obj

/-- **C148**, how likely the bound holds for a quantile of the objective: nothing raises, the run makes `K` suggestions one at
a time without context, de-duplication and stop for close locations, and the samples of the acquisition optimizer are drawn
uniformly and independently, `N` per iteration. Let `γ` be the probability that a location drawn uniformly from the domain
has a value of at most `q`. Then with probability at least `(1 - (1 - γ) ^ N) ^ K` the run completes and the excess of the
reported optimum over `q` is at most the average of `2 * w * dev` over the suggestions. -/
theorem C148_probability {config : List Desc} {sp : Space} (h : designSpace config none = .ok sp) (hb : sp.hasBandit = false)
    (hs : ∀ k ∈ kindsOf config, Samplable k) (hvar : kindsOf config ≠ []) (hk : AllCont (kindsOf config))
    {M K N : Nat} (hN : 0 < N) (junk : Nat → Nat → ℚ) (rest : Nat → DesignOracle) (hrest : ∀ k, UnitOracle (rest k))
    (w : ℚ) (shift scale : BOState → ℚ) (mean dev : BOState → Vec → ℚ) (F : Vec → ℚ)
    (hcal : ∀ t, t.Y = some (t.X.map F) → Calibrated (kindsOf config) F w (shift t) (scale t) (mean t) (dev t))
    (envs : Draws M K 1 N sp.kinds → BOState → EvalEnv) (hf : ∀ ω t, (envs ω t).f = confidenceF w (mean t) (dev t))
    (hlogic : ∀ ω t, (envs ω t).op.anchorLogic = "max_objective")
    (hopt : ∀ ω t k, Descends ((envs ω t).oracle.acq.opt k) (sp.kinds.map contBox))
    (env : Draws M K 1 N sp.kinds → BOEnv)
    (hr : ∀ ω, CalmBO sp .sequential false { env ω with suggest := stdSuggest sp .sequential (envs ω) false } (envs ω))
    (hobj : ∀ ω, (env ω).obj = some fun _ x => .ok (F x))
    (a : RunArgs) (ha : a.context = none) (hK : a.maxIter = some (.fin K)) (ht : a.maxTime = none) (heps : a.eps < 0)
    (fuel : Nat) (hfuel : K < fuel) (s : BOState) (hne : s.X ≠ []) (hX : ∀ x ∈ s.X, ObjDomain sp.kinds x)
    (hY : s.Y = none ∨ s.Y = some (s.X.map F)) (hc : SoundCost s.cost) (q : ℚ) :
    open Classical in
    (1 - (1 - targetRatio M sp.kinds none fun x => F x ≤ q) ^ N) ^ K ≤
      ((Finset.univ.filter fun ω : Draws M K 1 N sp.kinds =>
        ∃ s' r σ x, runOptimization (confBO (env ω) sp N (drawsOf junk rest ω) (envs ω)) a fuel s = (s', .done .limit) ∧
          s'.numAcq = K ∧ s'.results = some r ∧ Iterates F none s.X.length s' σ x ∧
          K * (r.fxOpt - q) ≤ 2 * w * ∑ k ∈ Finset.range K, scale (σ k) * dev (σ k) (x k)).card : ℝ) /
        Fintype.card (Draws M K 1 N sp.kinds) := by
  classical
  obtain ⟨G, hG⟩ : ∃ G : Vec → Prop, ∀ x, G x ↔ F x ≤ q := ⟨_, fun _ => Iff.rfl⟩
  rw [show (fun x => F x ≤ q) = G from funext fun x => propext (hG x).symm, ← share_hit M K N sp.kinds G]
  refine div_le_div_of_nonneg_right (Nat.cast_le.2 (Finset.card_le_card fun ω hω => ?_)) (Nat.cast_nonneg _)
  rw [Finset.mem_filter_univ] at hω ⊢
  have ho := unitOracle_drawsOf junk hrest ω
  have hcalm := calm_conf hN (hr ω) ho
  have hYl : ∀ Y, s.Y = some Y → Y.length = s.X.length := by
    rintro Y hY'
    rcases hY with hY | hY <;> rw [hY] at hY'
    · cases hY'
    · cases hY'
      simp
  have hg : ValidContext sp a.context := by simp [ValidContext, ha]
  rcases C140_run_completes h hb hs hvar (by simp [GoodEvaluator]) hcalm (.inl rfl) a hg K hK ht fuel hfuel s hne hX hYl hc with
    ⟨h1, h2⟩ | ⟨-, h2⟩
  swap
  · simp at h2
  rcases hx : runOptimization (confBO (env ω) sp N (drawsOf junk rest ω) (envs ω)) a fuel s with ⟨s', wh⟩
  rw [hx] at h1 h2
  simp only at h1 h2
  subst h1
  have hKn : s'.numAcq = K := by
    rcases h2 with h2 | ⟨pre, u, v, -, h2⟩
    · exact h2
    · have := Real.sqrt_nonneg ((List.zipWith (fun u v : ℚ => ((u : ℝ) - v) ^ 2) v u).sum)
      have : (a.eps : ℝ) < 0 := by exact_mod_cast heps
      linarith
  obtain ⟨r, σ, x, Z, c1, c2, c3, c4⟩ := C148_run h hb hs hvar hk w shift scale mean dev F hcal
    (confEnvs N (drawsOf junk rest ω) (envs ω)) (goodEnv_conf hN ho fun s => ((hr ω).calm s).good) (fun t => hf ω t)
    (fun t => hlogic ω t) false (confBO (env ω) sp N (drawsOf junk rest ω) (envs ω)) rfl (hobj ω) a hg
    (fun t c hcm k => by
      have hkk := space_kinds_eq h
      rw [bounds_cont h hb (hkk ▸ hk) hcm, keep_true]
      · exact hopt ω t k
      · intro i
        rw [ha] at hcm
        simp [freePos, contextManager_none hcm]) fuel s s' .limit hY hx
  rw [ha] at c2 c3
  rw [hKn] at c3 c4
  refine ⟨s', r, σ, x, rfl, hKn, c1, c2, (c4 q fun k hk => ?_).1⟩
  obtain ⟨d1, -⟩ := c3 k hk
  have hn : (σ k).numAcq = k := (c2 k (hKn ▸ hk)).1
  have hd : (confEnvs N (drawsOf junk rest ω) (envs ω) (σ k)).oracle.acq.design = oracleOf junk (ω ⟨k, hk⟩) := by
    simp [confEnvs, drawsOf, hn, hk]
  rw [hd] at d1
  have hZ := sampled_draws h junk (ω ⟨k, hk⟩) d1
  obtain ⟨ρ, hρ⟩ := hω ⟨k, hk⟩
  exact ⟨_, by rw [hZ, List.mem_ofFn]; exact ⟨ρ, rfl⟩, (hG _).1 hρ⟩

/-! ## Rounding -/

/-- The mean of the model for the counterexample; there is no uncertainty. -/
def exSure (x : Vec) : ℚ := if x = [3/5] then -1 else if x = [0] then 0 else 5

/-- **C148** (negation, discrete variables): rounding breaks the bound. The model knows the objective at both values of the
variable, `0` at `0` and `5` at `1`. Both are sampled, but the optimum of the acquisition is between them, and the location it
is rounded to is suggested: the excess over a sample is `5`, the width of the interval is zero. -/
theorem C148_rounding_counterexample :
    Calibrated (kindsOf exRoundKinds) exSure 2 0 1 exSure (fun _ => 0) ∧
    ((designSpace exRoundKinds none).bind fun sp => (contextManager sp none).bind fun c =>
      anchorSamples sp (some c) false "random" 4 exOracle) = .ok [[0], [1], [0], [1]] ∧
    ((designSpace exRoundKinds none).bind fun sp => (contextManager sp none).bind fun c =>
      acqOptimize sp c none { numSamplesObjective := 4 } exBetweenOracle (confidenceF 2 exSure fun _ => 0)) = .ok ([1], 5) ∧
    (∀ k g x, exBetweenOracle.opt k g x = .ok [3/5]) ∧
    (∀ x v v', confidenceF 2 exSure (fun _ => 0) [3/5] = .ok v → confidenceF 2 exSure (fun _ => 0) x = .ok v' → v ≤ v') ∧
    exSure [1] = exSure [0] + 5 := by
  refine ⟨⟨one_pos, fun x _ => by simp⟩, by decide +kernel, by decide +kernel, fun _ _ _ => rfl, ?_, by decide +kernel⟩
  intro x v v' h1 h2
  simp only [confidenceF, Except.ok.injEq] at h1 h2
  subst h1 h2
  have h0 : exSure [3/5] = -1 := by decide +kernel
  have h1 : -1 ≤ exSure x := by
    unfold exSure
    split_ifs <;> norm_num
  rw [h0]
  linarith

/-! ## An example: Lipschitz bounds -/

/-- A lower bound of an objective with the Lipschitz constant 1 and values of at least `-1`. -/
def exLower (D : List (Vec × ℚ)) (x : Vec) : ℚ := D.foldr (fun p b => max b (p.2 - |x.headD 0 - p.1.headD 0|)) (-1)

/-- An upper bound. -/
def exUpper (D : List (Vec × ℚ)) (x : Vec) : ℚ := D.foldr (fun p b => min b (p.2 + |x.headD 0 - p.1.headD 0|)) 1

/-- The data of a state. -/
def exData (t : BOState) : List (Vec × ℚ) := t.X.zip (t.Y.getD [])

def exMid (t : BOState) (x : Vec) : ℚ := (exLower (exData t) x + exUpper (exData t) x) / 2

def exHalf (t : BOState) (x : Vec) : ℚ := (exUpper (exData t) x - exLower (exData t) x) / 2

def exValley (x : Vec) : ℚ := |x.headD 0 - 1/2|

def exUnitLine : List Desc := [{ name := some "a", type := some "continuous", domain := some (.flat [0, 1]) }]

theorem exLip_calibrated (t : BOState) (ht : t.Y = some (t.X.map exValley)) :
    Calibrated [.continuous 0 1] exValley 1 0 1 (exMid t) (exHalf t) := by
  refine ⟨one_pos, fun x hx => ?_⟩
  have hx1 : |exValley x| ≤ 1 := by
    cases hx with
    | cons h1 h2 =>
      cases h2
      simp only [ValidObj] at h1
      simp only [exValley, List.headD_cons, abs_abs]
      rw [abs_le]
      constructor <;> linarith [h1.1, h1.2]
  have hlip : ∀ u : Vec, exValley u - |x.headD 0 - u.headD 0| ≤ exValley x ∧
      exValley x ≤ exValley u + |x.headD 0 - u.headD 0| := by
    intro u
    unfold exValley
    have e1 := abs_sub_abs_le_abs_sub (u.headD 0 - 1/2) (x.headD 0 - 1/2)
    have e2 := abs_sub_abs_le_abs_sub (x.headD 0 - 1/2) (u.headD 0 - 1/2)
    rw [show u.headD 0 - 1/2 - (x.headD 0 - 1/2) = u.headD 0 - x.headD 0 by ring, abs_sub_comm (u.headD 0) (x.headD 0)] at e1
    rw [show x.headD 0 - 1/2 - (u.headD 0 - 1/2) = x.headD 0 - u.headD 0 by ring] at e2
    constructor <;> linarith
  have hD : ∀ p ∈ exData t, p.2 = exValley p.1 := by
    unfold exData
    rw [ht]
    intro p hp
    simp only [Option.getD_some] at hp
    obtain ⟨i, hi, rfl⟩ := List.mem_iff_getElem.1 hp
    simp
  have hb : exLower (exData t) x ≤ exValley x ∧ exValley x ≤ exUpper (exData t) x := by
    generalize exData t = D at hD
    induction D with
    | nil =>
      rw [abs_le] at hx1
      exact hx1
    | cons p D ih =>
      obtain ⟨i1, i2⟩ := ih fun p hp => hD p (by simp [hp])
      obtain ⟨l1, l2⟩ := hlip p.1
      have := hD p (by simp)
      simp only [exLower, exUpper, List.foldr_cons] at i1 i2 ⊢
      rw [this]
      exact ⟨max_le i1 l1, le_min i2 l2⟩
  unfold exMid exHalf
  rw [abs_le]
  constructor <;> linarith [hb.1, hb.2]

/-- The local optimizer keeps its start. -/
def exStay : AcqOracle := { exAcq with opt := fun _ _ x => .ok x }

theorem exStay_good : GoodAcq exStay :=
  ⟨exAcq_good.unit, exAcq_good.argsort, exAcq_good.thompson, fun k g x y hy => by
    simp only [exStay, Except.ok.injEq] at hy
    rw [hy]⟩

theorem exStay_descends (k : Nat) (b : Bounds) : Descends (exStay.opt k) b := by
  intro g x y hx hy
  simp only [exStay, Except.ok.injEq] at hy
  subst hy
  exact ⟨hx, fun v0 h0 => ⟨v0, h0, le_rfl⟩⟩

def exLipEnvs (t : BOState) : EvalEnv :=
  { exEnv with
    f := confidenceF 1 (exMid t) (exHalf t)
    oracle := ⟨exStay, exAcq⟩ }

def exLipBO (sp : Space) : BOEnv :=
  { exSearch sp with
    obj := some fun _ x => .ok (exValley x)
    suggest := stdSuggest sp .sequential exLipEnvs false }

theorem exLip_calm (sp : Space) : CalmBO sp .sequential false (exLipBO sp) exLipEnvs where
  space := rfl
  suggest := rfl
  fit := fun _ _ _ => rfl
  params := fun _ => ⟨_, rfl⟩
  costFit := fun _ => rfl
  interval := by show (2 : Int) ≠ 0; decide
  calm := fun _ => {
    good := ⟨⟨by simp [exLipEnvs, exEnv], by simp [exLipEnvs, exEnv], by simp [exLipEnvs, exEnv]⟩, exStay_good, exAcq_good,
      by simp [exLipEnvs, exEnv], by simp [exLipEnvs, exEnv]⟩
    name := by simp [exLipEnvs, exEnv]
    logic := by simp [exLipEnvs, exEnv]
    f := fun _ => ⟨_, rfl⟩
    opt := fun _ _ _ => ⟨_, rfl⟩
    thompson := fun _ => ⟨_, rfl⟩
    batchOpt := fun _ _ _ => ⟨_, rfl⟩
    batchThompson := fun _ => ⟨_, rfl⟩
    lp := fun _ => exAcq_good
    lpOpt := fun _ _ _ _ => ⟨_, rfl⟩
    lpThompson := fun _ _ => ⟨_, rfl⟩
    fLP := fun _ _ => ⟨_, rfl⟩
    consts := ⟨_, rfl⟩ }
  samples := by
    intro s n hn
    cases hn
  obj := ⟨_, rfl, fun _ _ _ => ⟨_, rfl⟩⟩

/-- The hypotheses of `C148_probability`, and therefore those of the other theorems, are met by search with Lipschitz bounds. -/
example (K : Nat) (q : ℚ) {sp : Space} (h : designSpace exUnitLine none = .ok sp) :
    open Classical in
    (1 - (1 - targetRatio 8 sp.kinds none fun x => exValley x ≤ q) ^ 5) ^ K ≤
      ((Finset.univ.filter fun ω : Draws 8 K 1 5 sp.kinds =>
        ∃ s' r σ x, runOptimization (confBO (exLipBO sp) sp 5 (drawsOf (fun _ _ => 0) (fun _ => exOracle) ω) exLipEnvs)
          { maxIter := some (.fin K), maxTime := none, eps := -1 } (K + 1) (boInit [[0]] none .none) = (s', .done .limit) ∧
          s'.numAcq = K ∧ s'.results = some r ∧ Iterates exValley none 1 s' σ x ∧
          K * (r.fxOpt - q) ≤ 2 * 1 * ∑ k ∈ Finset.range K, 1 * exHalf (σ k) (x k)).card : ℝ) /
        Fintype.card (Draws 8 K 1 5 sp.kinds) := by
  have hk : kindsOf exUnitLine = [.continuous 0 1] := by decide +kernel
  have hkk := space_kinds_eq h
  have hb : sp.hasBandit = false := by
    have : (designSpace exUnitLine none).map Space.hasBandit = .ok false := by decide +kernel
    rw [h] at this
    simpa [Except.map] using this
  exact C148_probability (M := 8) (K := K) (N := 5) h hb (by rw [hk]; simp [Samplable]) (by rw [hk]; simp)
    (by rw [hk]; intro k hk; exact ⟨0, 1, by simpa using hk⟩) (by omega) (fun _ _ => 0) (fun _ => exOracle)
    (fun _ => exOracle_unit) 1 (fun _ => 0) (fun _ => 1) exMid exHalf exValley
    (fun t ht => by rw [hk]; exact exLip_calibrated t ht) (fun _ => exLipEnvs) (fun _ _ => rfl) (fun _ _ => rfl)
    (fun _ _ k => exStay_descends k _) (fun _ => exLipBO sp) (fun _ => exLip_calm sp) (fun _ => rfl)
    { maxIter := some (.fin K), maxTime := none, eps := -1 } rfl rfl rfl (by norm_num) (K + 1) (by omega)
    (boInit [[0]] none .none) (by simp [boInit]) (by
      rw [hkk, hk]
      simp [boInit, ObjDomain, ValidObj]) (by left; rfl) (by simp [SoundCost, boInit, costModelInit]) q

/-- Two iterations. -/
example : ((designSpace exUnitLine none).map fun sp =>
      let r := runOptimization (exLipBO sp) { maxIter := some (.fin 2), maxTime := none, eps := -1 } 10
        (boInit [[0]] none .none)
      (r.2, r.1.X, r.1.Y, r.1.results.map Results.fxOpt))
    = .ok (.done .limit, [[0], [1/2], [1/2]], some [1/2, 0, 0], some 0) := by
  decide +kernel

end Props

end GPyOpt
