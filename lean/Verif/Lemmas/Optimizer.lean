import Verif.Lemmas.Anchor
import Verif.Model.Evaluators

/-! # Lemmas about local optimization of anchor points -/

namespace GPyOpt

open Spec Props

theorem samplable_nonEmpty {k : Kind} (h : Samplable k) : NonEmptyDom k := by
  cases k with
  | continuous lo hi => exact h
  | discrete vals => exact h
  | categorical labels => exact h.1
  | bandit arms => exact h

theorem x0NoContext_ok {sp : Space} {context : Option Context} {c : Ctx}
    (hc : contextManager sp context = .ok c) {z : Vec} (hz : ObjDomain sp.kinds z) :
    ∃ xs, x0NoContext (some c) (encodeRow sp.kinds z) = .ok xs ∧
      xs.length = c.noncontextIndex.length := by
  obtain ⟨vs, es, hcok⟩ := contextManager_ok hc
  have hl := encodeRow_length (encodable_of_objDomain hz)
  obtain ⟨xs, h1, h2⟩ := mapE_npGet_total (encodeRow sp.kinds z) c.noncontextIndex (by
    intro i hi
    rw [hcok.free, List.mem_filter, List.mem_range, modelDim_eq] at hi
    omega)
  exact ⟨xs, h1, mapE_length h1⟩

/-- Dropping the context columns of a row that carries the context, and adding them again. -/
theorem x0NoContext_expand {config : List Desc} {cs : Option (List ConstrDict)} {sp : Space}
    (h : designSpace config cs = .ok sp) (hb : sp.hasBandit = false)
    {context : Option Context} (hg : ValidContext sp context) {c : Ctx}
    (hc : contextManager sp context = .ok c) {z : Vec} (hz : ObjDomain sp.kinds z)
    (hctx : HasContext sp context z) :
    ∃ xs, x0NoContext (some c) (encodeRow sp.kinds z) = .ok xs ∧
      c.expandVector sp xs = .ok (encodeRow sp.kinds z) := by
  have hz' : ObjDomain (keep (freePos c) 0 sp.kinds) (keep (freePos c) 0 z) :=
    keep_forall₂ (freePos c) hz 0
  obtain ⟨z2, h1, h2, h3, h4⟩ := expand_encode h hb hg hc hz'
  have := eq_of_free_context hg hc h2 hz h3 hctx h4
  subst this
  obtain ⟨xs, hxs, hxl⟩ := x0NoContext_ok hc hz
  refine ⟨xs, hxs, ?_⟩
  have hlenx : (encodeRow (keep (freePos c) 0 sp.kinds) (keep (freePos c) 0 z2)).length
      = c.noncontextIndex.length := by
    obtain ⟨vs, es, hcok⟩ := contextManager_ok hc
    obtain ⟨hcnd, hclt, hclen, hfree⟩ := hcok.columns h hb hg.1
    rw [encodeRow_length (encodable_of_objDomain hz'), hfree, List.length_flatten]
    show _ = ((keep (freePos c) 0 (sp.expanded.map EVar.idxModel)).map List.length).sum
    rw [← keep_map, ← keep_map, Space.kinds, List.map_map, List.map_map]
    congr 2
    apply List.map_congr_left
    intro v hv
    obtain ⟨i, hi⟩ := List.getElem?_of_mem hv
    simp [(C07_layout h hb i v hi).2.2]
  obtain ⟨row, r1, -, r2, -⟩ := C22_context_expansion h hb context (validContext_good hg) c hc _ hlenx
  rw [h1] at r1
  injection r1 with r1
  subst r1
  have : xs = encodeRow (keep (freePos c) 0 sp.kinds) (keep (freePos c) 0 z2) := by
    simp only [x0NoContext] at hxs
    exact map_some_inj ((mapE_npGet_map_some hxs).symm.trans r2)
  rw [this, h1]

/-- What `apply_optimizer` does when it starts at a good row. -/
theorem applyOptimizer_spec {config : List Desc} {cs : Option (List ConstrDict)} {sp : Space}
    (h : designSpace config cs = .ok sp) (hb : sp.hasBandit = false)
    (hne : ∀ k ∈ sp.kinds, NonEmptyDom k) (hvar : sp.kinds ≠ [])
    {context : Option Context} (hg : ValidContext sp context) {c : Ctx}
    (hc : contextManager sp context = .ok c) (dup : Option DupMgr)
    {opt : (Vec → Py ℚ) → Vec → Py Vec} (hopt : OptShape opt) (f : Vec → Py ℚ) {x0 z0 : Vec}
    (hx0 : GoodRow sp.kinds sp context x0 z0) :
    (InDup dup z0 → applyOptimizer sp (some c) dup opt f x0 = .error .valueError) ∧
    (¬ InDup dup z0 → ∃ xs, xs.length = c.noncontextIndex.length ∧
      ((∃ e, opt (fNoContext (some c) sp f) xs = .error e ∧
          applyOptimizer sp (some c) dup opt f x0 = .error e) ∨
       ∃ y x z, opt (fNoContext (some c) sp f) xs = .ok y ∧ GoodRow sp.kinds sp context x z ∧ ¬ InDup dup z ∧
         (applyOptimizer sp (some c) dup opt f x0
           = match f x with | .error e => .error e | .ok v => .ok (x, v)))) := by
  obtain ⟨rfl, hz0, hctx0⟩ := hx0
  obtain ⟨xs, hxs, hxl⟩ := x0NoContext_ok hc hz0
  have hd0 := isDup_encode h hb dup hz0
  constructor
  · intro hin
    simp [applyOptimizer, hxs, hd0, hin]
  · intro hin
    refine ⟨xs, hxl, ?_⟩
    cases ho : opt (fNoContext (some c) sp f) xs with
    | error e =>
      left
      exact ⟨e, rfl, by simp [applyOptimizer, hxs, hd0, hin, ho]⟩
    | ok y =>
      right
      obtain ⟨yc, z, h1, h2, h3, h4⟩ := round_expand h hb hne hvar hg hc ((hopt _ _ _ ho).trans hxl)
      have hd1 := isDup_encode h hb dup h3
      by_cases hin1 : InDup dup z
      · refine ⟨y, _, z0, rfl, ⟨rfl, hz0, hctx0⟩, hin, ?_⟩
        simp only [applyOptimizer, hxs, hd0, hin, ho, addContext, h1, h2, hd1, hin1, decide_false,
          decide_true]
        cases f (encodeRow sp.kinds z0) <;> rfl
      · refine ⟨y, _, z, rfl, ⟨rfl, h3, h4⟩, hin1, ?_⟩
        simp only [applyOptimizer, hxs, hd0, hin, ho, addContext, h1, h2, hd1, hin1, decide_false]
        cases f (encodeRow sp.kinds z) <;> rfl

theorem objectiveScores_shape (f : Vec → Py ℚ) : ScoreShape (objectiveScores f) :=
  fun _ _ h => mapE_length h

theorem randomScores_shape : ScoreShape randomScores := by
  intro X s h
  simp only [randomScores, Except.ok.injEq] at h
  subst h; simp

/-- The anchor points, described through the sampled configurations `Z`. The samples are a design of the free variables. -/
theorem anchorPoints_design {config : List Desc} {cs : Option (List ConstrDict)} {sp : Space}
    (h : designSpace config cs = .ok sp) (hb : sp.hasBandit = false)
    (hs : ∀ k ∈ sp.kinds, Samplable k)
    {context : Option Context} (hg : ValidContext sp context) {c : Ctx}
    (hc : contextManager sp context = .ok c) {o : DesignOracle} (ho : UnitOracle o) {t : String}
    (ht : t ∈ ["random", "sobol"]) {n : Nat} (hn : 0 < n) (unique : Bool) (dup : Option DupMgr)
    (numAnchor : Nat) {score : Mat → Py (List ℚ)} (hsc : ScoreShape score)
    {argsort : List ℚ → List Nat} (ha : IsArgsort argsort) :
    (∃ e, anchorPoints sp (some c) dup unique t n numAnchor o score argsort = .error e ∧ cs ≠ none ∧ ¬ SamplesFound sp c t n o) ∨
    ∃ (ds : List Desc) (sp' : Space) (m Z : Mat), designSpace ds sp.constraints = .ok sp' ∧ sp'.hasBandit = false ∧
      sp'.kinds = keep (freePos c) 0 sp.kinds ∧ initialDesign t sp' o n = .ok m ∧ m.length = n ∧
      List.Forall₂ (fun r z => ObjDomain sp.kinds z ∧ HasContext sp context z ∧
            keep (freePos c) 0 z = r) (if unique then sortedUnique m else m) Z ∧
      ((∀ z ∈ Z, InDup dup z) →
        anchorPoints sp (some c) dup unique t n numAnchor o score argsort = .error .fullyExplored) ∧
      ((∃ z ∈ Z, ¬ InDup dup z) →
        (∃ e, score ((Z.filter (fun z => !decide (InDup dup z))).map (encodeRow sp.kinds)) = .error e ∧
          anchorPoints sp (some c) dup unique t n numAnchor o score argsort = .error e) ∨
        ∃ (s : List ℚ) (A : Mat), score ((Z.filter (fun z => !decide (InDup dup z))).map (encodeRow sp.kinds)) = .ok s ∧
          s.length = (Z.filter (fun z => !decide (InDup dup z))).length ∧
          anchorPoints sp (some c) dup unique t n numAnchor o score argsort
            = .ok (A.map (encodeRow sp.kinds)) ∧
          A.map some = ((argsort s).take numAnchor).map
            (fun i => (Z.filter (fun z => !decide (InDup dup z)))[i]?) ∧
          A.length = min numAnchor (Z.filter (fun z => !decide (InDup dup z))).length ∧
          ∀ z ∈ A, z ∈ Z ∧ ¬ InDup dup z) := by
  obtain ⟨ds, sp', h1, h1b, h2, h3⟩ := anchorSamples_spec h hb hs hg hc ho ht hn unique
  rcases h3 with ⟨e, h4, h5, h6⟩ | ⟨m, Z, h4, h5, h6, h7⟩
  · left
    exact ⟨e, by simp [anchorPoints, h5], h6⟩
  · right
    have hZd : ∀ z ∈ Z, ObjDomain sp.kinds z := by
      intro z hz
      obtain ⟨r, _, hr⟩ := forall₂_mem_right h7 hz
      exact hr.1
    obtain ⟨e1, e2, e3⟩ := anchorPoints_of_samples (numAnchor := numAnchor) (score := score) h hb dup ha h6
      hZd _ rfl
    refine ⟨ds, sp', m, Z, h1, h1b, h2, h4, h5, h7, ?_, ?_⟩
    · intro hall
      exact e1 (List.filter_eq_nil_iff.2 fun z hz => by simp [hall z hz])
    · rintro ⟨z0, hz0, hnd⟩
      have hne : Z.filter (fun z => !decide (InDup dup z)) ≠ [] :=
        List.ne_nil_of_mem (List.mem_filter.2 ⟨hz0, by simp [hnd]⟩)
      cases hsco : score ((Z.filter (fun z => !decide (InDup dup z))).map (encodeRow sp.kinds)) with
      | error e => exact .inl ⟨e, rfl, e2 hne e hsco⟩
      | ok s =>
        have hl := hsc _ _ hsco
        simp only [List.length_map] at hl
        obtain ⟨A, g1, g2, g3⟩ := e3 hne s hsco hl
        refine .inr ⟨s, A, rfl, hl, g1, g2, g3, ?_⟩
        intro z hz
        have : some z ∈ A.map some := List.mem_map_of_mem hz
        rw [g2, List.mem_map] at this
        obtain ⟨i, _, hi⟩ := this
        have := List.mem_of_getElem? hi
        simpa [List.mem_filter] using this

/-- The anchor points, described through the sampled configurations `Z`. -/
theorem anchorPoints_spec {config : List Desc} {cs : Option (List ConstrDict)} {sp : Space}
    (h : designSpace config cs = .ok sp) (hb : sp.hasBandit = false)
    (hs : ∀ k ∈ sp.kinds, Samplable k)
    {context : Option Context} (hg : ValidContext sp context) {c : Ctx}
    (hc : contextManager sp context = .ok c) {o : DesignOracle} (ho : UnitOracle o) {t : String}
    (ht : t ∈ ["random", "sobol"]) {n : Nat} (hn : 0 < n) (unique : Bool) (dup : Option DupMgr)
    (numAnchor : Nat) {score : Mat → Py (List ℚ)} (hsc : ScoreShape score)
    {argsort : List ℚ → List Nat} (ha : IsArgsort argsort) :
    (∃ e, anchorPoints sp (some c) dup unique t n numAnchor o score argsort = .error e ∧ cs ≠ none ∧ ¬ SamplesFound sp c t n o) ∨
    ∃ m Z : Mat, m.length = n ∧
      List.Forall₂ (fun r z => ObjDomain sp.kinds z ∧ HasContext sp context z ∧
            keep (freePos c) 0 z = r) (if unique then sortedUnique m else m) Z ∧
      ((∀ z ∈ Z, InDup dup z) →
        anchorPoints sp (some c) dup unique t n numAnchor o score argsort = .error .fullyExplored) ∧
      ((∃ z ∈ Z, ¬ InDup dup z) →
        (∃ e, score ((Z.filter (fun z => !decide (InDup dup z))).map (encodeRow sp.kinds)) = .error e ∧
          anchorPoints sp (some c) dup unique t n numAnchor o score argsort = .error e) ∨
        ∃ (s : List ℚ) (A : Mat), score ((Z.filter (fun z => !decide (InDup dup z))).map (encodeRow sp.kinds)) = .ok s ∧
          s.length = (Z.filter (fun z => !decide (InDup dup z))).length ∧
          anchorPoints sp (some c) dup unique t n numAnchor o score argsort
            = .ok (A.map (encodeRow sp.kinds)) ∧
          A.map some = ((argsort s).take numAnchor).map
            (fun i => (Z.filter (fun z => !decide (InDup dup z)))[i]?) ∧
          A.length = min numAnchor (Z.filter (fun z => !decide (InDup dup z))).length ∧
          ∀ z ∈ A, z ∈ Z ∧ ¬ InDup dup z) := by
  rcases anchorPoints_design h hb hs hg hc ho ht hn unique dup numAnchor hsc ha with
    h1 | ⟨ds, sp', m, Z, -, -, -, -, h5, h6⟩
  · exact .inl h1
  · exact .inr ⟨m, Z, h5, h6⟩

/-- Every anchor point is a good row that is not known, and there is at least one. -/
theorem anchorPoints_sound {config : List Desc} {cs : Option (List ConstrDict)} {sp : Space}
    (h : designSpace config cs = .ok sp) (hb : sp.hasBandit = false)
    (hs : ∀ k ∈ sp.kinds, Samplable k)
    {context : Option Context} (hg : ValidContext sp context) {c : Ctx}
    (hc : contextManager sp context = .ok c) {o : DesignOracle} (ho : UnitOracle o) {t : String}
    (ht : t ∈ ["random", "sobol"]) {n : Nat} (hn : 0 < n) {unique : Bool} {dup : Option DupMgr}
    {numAnchor : Nat} {score : Mat → Py (List ℚ)} (hsc : ScoreShape score)
    {argsort : List ℚ → List Nat} (ha : IsArgsort argsort) {as : Mat}
    (has : anchorPoints sp (some c) dup unique t n numAnchor o score argsort = .ok as) :
    (∀ a ∈ as, ∃ z, GoodRow sp.kinds sp context a z ∧ ¬ InDup dup z) ∧ (0 < numAnchor → as ≠ []) := by
  rcases anchorPoints_spec h hb hs hg hc ho ht hn unique dup numAnchor hsc ha with
    ⟨e, h1, _⟩ | ⟨m, Z, h1, h2, h3, h4⟩
  · rw [has] at h1; cases h1
  · by_cases hall : ∀ z ∈ Z, InDup dup z
    · rw [has] at h3; cases h3 hall
    · have hall' : ∃ z ∈ Z, ¬ InDup dup z := by
        by_contra hcon
        exact hall fun z hz => by_contra fun hn => hcon ⟨z, hz, hn⟩
      rcases h4 hall' with ⟨e, _, h6⟩ | ⟨s, A, h5, h6, h7, h8, h9, h10⟩
      · rw [has] at h6; cases h6
      · rw [has] at h7; cases h7
        constructor
        · intro a ha
          obtain ⟨z, hz, rfl⟩ := List.mem_map.1 ha
          obtain ⟨hzZ, hzd⟩ := h10 z hz
          obtain ⟨r, _, hr⟩ := forall₂_mem_right h2 hzZ
          exact ⟨z, ⟨rfl, hr.1, hr.2.1⟩, hzd⟩
        · intro hpos hnil
          obtain ⟨z, hz, hzd⟩ := hall'
          have : (Z.filter (fun z => !decide (InDup dup z))) ≠ [] :=
            List.ne_nil_of_mem (List.mem_filter.2 ⟨hz, by simp [hzd]⟩)
          have h11 := List.length_pos_iff.2 this
          have : A = [] := by simpa using hnil
          rw [this] at h9
          simp at h9
          omega

theorem acqAnchors_sound {config : List Desc} {cs : Option (List ConstrDict)} {sp : Space}
    (h : designSpace config cs = .ok sp) (hb : sp.hasBandit = false)
    (hs : ∀ k ∈ sp.kinds, Samplable k)
    {context : Option Context} (hg : ValidContext sp context) {c : Ctx}
    (hc : contextManager sp context = .ok c) {dup : Option DupMgr} {op : AcqOptions}
    (hop : GoodOptions op) {o : AcqOracle} (ho : GoodAcq o) {f : Vec → Py ℚ} {as : Mat}
    (has : acqAnchors sp c dup op o f = .ok as) :
    (∀ a ∈ as, ∃ z, GoodRow sp.kinds sp context a z ∧ ¬ InDup dup z) ∧ as ≠ [] := by
  unfold acqAnchors at has
  split_ifs at has with h1 h2
  · have := anchorPoints_sound h hb hs hg hc ho.unit (by simp) hop.nObj (objectiveScores_shape f)
      ho.argsort has
    exact ⟨this.1, this.2 hop.nAnchor⟩
  · have := anchorPoints_sound h hb hs hg hc ho.unit (by simp) hop.nThompson ho.thompson
      ho.argsort has
    exact ⟨this.1, this.2 hop.nAnchor⟩

/-- the locally optimized anchor points -/
theorem optimizedPoints_sound {config : List Desc} {cs : Option (List ConstrDict)} {sp : Space}
    (h : designSpace config cs = .ok sp) (hb : sp.hasBandit = false)
    (hne : ∀ k ∈ sp.kinds, NonEmptyDom k) (hvar : sp.kinds ≠ [])
    {context : Option Context} (hg : ValidContext sp context) {c : Ctx}
    (hc : contextManager sp context = .ok c) {dup : Option DupMgr}
    {opt : Nat → (Vec → Py ℚ) → Vec → Py Vec} (hopt : ∀ k, OptShape (opt k)) {f : Vec → Py ℚ}
    {as : Mat} (has : ∀ a ∈ as, ∃ z, GoodRow sp.kinds sp context a z ∧ ¬ InDup dup z)
    {pts : List (Vec × ℚ)} (hp : optimizedPoints sp (some c) dup opt f as = .ok pts) :
    pts.length = as.length ∧
    ∀ p ∈ pts, ∃ z, GoodRow sp.kinds sp context p.1 z ∧ ¬ InDup dup z ∧ f p.1 = .ok p.2 := by
  refine ⟨by rw [mapE_length hp]; simp, ?_⟩
  intro p hpm
  obtain ⟨⟨a, k⟩, hak, hap⟩ := mapE_ok_mem hp hpm
  obtain ⟨z0, hz0, hd0⟩ := has a (by
    have := List.mem_zipIdx hak
    rw [this.2.2]; exact List.getElem_mem _)
  obtain ⟨xs, _, h2⟩ := (applyOptimizer_spec h hb hne hvar hg hc dup (hopt k) f hz0).2 hd0
  rcases h2 with ⟨e, _, h3⟩ | ⟨y, x, z, _, h4, h5, h6⟩
  · simp only at hap; rw [hap] at h3; cases h3
  · simp only at hap
    rw [hap] at h6
    cases hf : f x with
    | error e => simp [hf] at h6
    | ok v =>
      simp [hf] at h6
      subst h6
      exact ⟨z, h4, h5, hf⟩

/-- What `AcquisitionOptimizer.optimize` returns. -/
theorem acqOptimize_sound {config : List Desc} {cs : Option (List ConstrDict)} {sp : Space}
    (h : designSpace config cs = .ok sp) (hb : sp.hasBandit = false)
    (hs : ∀ k ∈ sp.kinds, Samplable k) (hvar : sp.kinds ≠ [])
    {context : Option Context} (hg : ValidContext sp context) {c : Ctx}
    (hc : contextManager sp context = .ok c) {dup : Option DupMgr} {op : AcqOptions}
    (hop : GoodOptions op) {o : AcqOracle} (ho : GoodAcq o) {f : Vec → Py ℚ} {r : Vec × ℚ}
    (hr : acqOptimize sp c dup op o f = .ok r) :
    ∃ z, GoodRow sp.kinds sp context r.1 z ∧ ¬ InDup dup z ∧ f r.1 = .ok r.2 := by
  unfold acqOptimize at hr
  cases h1 : chooseOptimizer op.optimizerName with
  | error e => simp [h1] at hr
  | ok u =>
    simp only [h1] at hr
    cases h2 : acqAnchors sp c dup op o f with
    | error e => simp [h2] at hr
    | ok as =>
      simp only [h2] at hr
      cases h3 : optimizedPoints sp (some c) dup o.opt f as with
      | error e => simp [h3] at hr
      | ok pts =>
        simp only [h3] at hr
        cases h4 : argmin (pts.map Prod.snd) with
        | error e => simp [h4] at hr
        | ok i =>
          simp only [h4] at hr
          obtain ⟨ha, hane⟩ := acqAnchors_sound h hb hs hg hc hop ho h2
          have := (optimizedPoints_sound h hb (fun k hk => samplable_nonEmpty (hs k hk)) hvar hg hc
            ho.opt ha h3).2
          exact this r (List.mem_of_getElem? (npGet_ok.1 hr))

/-- If the samples are found, as they are without constraints, then anchor points are found unless all samples are known. -/
theorem anchorPoints_total {config : List Desc} {cs : Option (List ConstrDict)} {sp : Space}
    (h : designSpace config cs = .ok sp) (hb : sp.hasBandit = false)
    (hs : ∀ k ∈ sp.kinds, Samplable k)
    {context : Option Context} (hg : ValidContext sp context) {c : Ctx}
    (hc : contextManager sp context = .ok c) {o : DesignOracle} (ho : UnitOracle o) {t : String}
    (ht : t ∈ ["random", "sobol"]) {n : Nat} (hn : 0 < n) (unique : Bool) (dup : Option DupMgr)
    (numAnchor : Nat) {score : Mat → Py (List ℚ)} (hsc : ScoreShape score)
    (htot : ∀ X, ∃ s, score X = .ok s) {argsort : List ℚ → List Nat} (ha : IsArgsort argsort)
    (hfound : cs = none ∨ SamplesFound sp c t n o) :
    (dup ≠ none ∧
      anchorPoints sp (some c) dup unique t n numAnchor o score argsort = .error .fullyExplored) ∨
    ∃ as, anchorPoints sp (some c) dup unique t n numAnchor o score argsort = .ok as := by
  rcases anchorPoints_spec h hb hs hg hc ho ht hn unique dup numAnchor hsc ha with
    ⟨e, _, h2, h3⟩ | ⟨m, Z, h1, h2, h3, h4⟩
  · exact absurd hfound (not_or.2 ⟨h2, h3⟩)
  · by_cases hall : ∀ z ∈ Z, InDup dup z
    · refine .inl ⟨?_, h3 hall⟩
      rintro rfl
      have hmne : m ≠ [] := by rintro rfl; simp at h1; omega
      obtain ⟨r, hr⟩ := List.exists_mem_of_ne_nil m hmne
      obtain ⟨z, hz, -⟩ := forall₂_mem_left h2 (a := r) (by
        split_ifs
        · exact mem_sortedUnique.2 hr
        · exact hr)
      obtain ⟨dm, hdm, -⟩ := hall z hz
      cases hdm
    · have hall' : ∃ z ∈ Z, ¬ InDup dup z := by
        by_contra hcon
        exact hall fun z hz => by_contra fun hn => hcon ⟨z, hz, hn⟩
      rcases h4 hall' with ⟨e, h5, _⟩ | ⟨s, A, h5, h6, h7, _⟩
      · obtain ⟨s, hs⟩ := htot ((Z.filter (fun z => !decide (InDup dup z))).map (encodeRow sp.kinds))
        rw [hs] at h5; cases h5
      · exact .inr ⟨_, h7⟩

/-- With total components, the acquisition optimizer returns a point unless all samples are known. -/
theorem acqOptimize_total {config : List Desc} {cs : Option (List ConstrDict)} {sp : Space}
    (h : designSpace config cs = .ok sp) (hb : sp.hasBandit = false)
    (hs : ∀ k ∈ sp.kinds, Samplable k) (hvar : sp.kinds ≠ [])
    {context : Option Context} (hg : ValidContext sp context) {c : Ctx}
    (hc : contextManager sp context = .ok c) (dup : Option DupMgr) {op : AcqOptions}
    (hop : GoodOptions op) (hname : op.optimizerName ∈ ["lbfgs", "DIRECT", "CMA"])
    (hlog : op.anchorLogic ∈ ["max_objective", "thompson_sampling"])
    {o : AcqOracle} (ho : GoodAcq o) {f : Vec → Py ℚ} (hf : ∀ x, ∃ v, f x = .ok v)
    (hopt : ∀ k g x, ∃ y, o.opt k g x = .ok y) (hth : ∀ X, ∃ s, o.thompson X = .ok s)
    (hfound : cs = none ∨ AcqSampled sp c op o.design) :
    (dup ≠ none ∧ acqOptimize sp c dup op o f = .error .fullyExplored) ∨ ∃ r, acqOptimize sp c dup op o f = .ok r := by
  have hch : chooseOptimizer op.optimizerName = .ok () := by
    have : op.optimizerName = "lbfgs" ∨ op.optimizerName = "DIRECT" ∨ op.optimizerName = "CMA" := by
      simpa using hname
    simp [chooseOptimizer, this]
  have hanc : (dup ≠ none ∧ acqAnchors sp c dup op o f = .error .fullyExplored) ∨
      ∃ as, acqAnchors sp c dup op o f = .ok as := by
    have : op.anchorLogic = "max_objective" ∨ op.anchorLogic = "thompson_sampling" := by
      simpa using hlog
    unfold acqAnchors
    rcases this with h1 | h1
    · rw [if_pos h1]
      refine anchorPoints_total h hb hs hg hc ho.unit (by simp) hop.nObj _ _ _
        (objectiveScores_shape f) (fun X => mapE_total fun x _ => hf x) ho.argsort (hfound.imp id And.right)
    · rw [if_neg (by rw [h1]; decide), if_pos h1]
      exact anchorPoints_total h hb hs hg hc ho.unit (by simp) hop.nThompson _ _ _
        ho.thompson hth ho.argsort (hfound.imp id fun h2 => absurd (h2.1.symm.trans h1) (by decide))
  rcases hanc with ⟨h0, h1⟩ | ⟨as, h1⟩
  · left; exact ⟨h0, by simp [acqOptimize, hch, h1]⟩
  · right
    obtain ⟨ha, hane⟩ := acqAnchors_sound h hb hs hg hc hop ho h1
    have hne := fun k hk => samplable_nonEmpty (hs k hk)
    obtain ⟨pts, hp⟩ : ∃ pts, optimizedPoints sp (some c) dup o.opt f as = .ok pts := by
      apply mapE_total
      rintro ⟨a, k⟩ hak
      obtain ⟨z0, hz0, hd0⟩ := ha a (by
        have := List.mem_zipIdx hak
        rw [this.2.2]; exact List.getElem_mem _)
      obtain ⟨xs, -, h3⟩ := (applyOptimizer_spec h hb hne hvar hg hc dup (ho.opt k) f hz0).2 hd0
      rcases h3 with ⟨e, he, -⟩ | ⟨y, x, z, -, hgr, hdz, heq⟩
      · obtain ⟨y, hy⟩ := hopt k (fNoContext (some c) sp f) xs
        rw [hy] at he; cases he
      · obtain ⟨v, hv⟩ := hf x
        exact ⟨(x, v), by simp only [heq, hv]⟩
    have hl := (optimizedPoints_sound h hb hne hvar hg hc ho.opt ha hp).1
    have hpne : pts.map Prod.snd ≠ [] := by
      intro hc'
      have := congrArg List.length hc'
      rw [List.length_map, hl] at this
      exact hane (List.length_eq_zero_iff.1 this)
    obtain ⟨i, v, e1, e2, -⟩ := argmin_spec hpne
    simp only [acqOptimize, hch, h1, hp, e1]
    rw [List.length_map] at e2
    exact ⟨_, npGet_ok.2 (List.getElem?_eq_getElem e2)⟩

end GPyOpt
