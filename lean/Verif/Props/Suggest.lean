import Verif.Lemmas.Optimizer

/-!
# Properties C24–C28: anchor points, local optimization, sequential suggestions

`kindsOf config` is the list of variables denoted by the configuration.  Random designs, scores,
`np.argsort` and the local optimizers are arbitrary, subject to `UnitOracle`, `ScoreShape`,
`IsArgsort` and `OptShape`.
-/

namespace GPyOpt.Props

open GPyOpt Spec

/-! ## C24: anchor points -/

theorem freeDesign_of_keep {config : List Desc} {cs : Option (List ConstrDict)} {sp : Space}
    (h : designSpace config cs = .ok sp) (hb : sp.hasBandit = false) {context : Option Context} {c : Ctx}
    (hc : contextManager sp context = .ok c) {ds : List Desc} {sp' : Space} (hd : designSpace ds sp.constraints = .ok sp')
    (hk : sp'.kinds = keep (freePos c) 0 sp.kinds) {t : String} {o : DesignOracle} {n : Nat} {m : Mat}
    (hm : initialDesign t sp' o n = .ok m) : FreeDesign sp c t o n m := by
  refine ⟨ds, sp', hd, ?_, hm⟩
  rw [← space_kinds_eq hd, hk]
  exact (keep_free hc (z := sp.kinds) (by rw [← (expandConfig_good h hb).length_eq])).symm

theorem map_freePart {config : List Desc} {cs : Option (List ConstrDict)} {sp : Space}
    (h : designSpace config cs = .ok sp) (hb : sp.hasBandit = false) {context : Option Context} {c : Ctx}
    (hc : contextManager sp context = .ok c) {l Z : Mat}
    (hf : List.Forall₂ (fun r z => ObjDomain sp.kinds z ∧ HasContext sp context z ∧ keep (freePos c) 0 z = r) l Z) :
    Z.map (freePart c) = l := by
  induction hf with
  | nil => rfl
  | cons h1 _ ih =>
    rw [List.map_cons, ih, freePart_eq hc (by rw [← h1.1.length_eq, ← (expandConfig_good h hb).length_eq]), h1.2.2]

/-- C24. Anchor points of a space without constraints, or with constraints under which the samples are found: `Z` are the `n` sampled configurations, whose free parts are
a design of the free variables. The domain
is reported as fully explored exactly if all of them are known; otherwise the anchor points are
the encodings of the best-scored unknown samples, as many as requested or available. -/
theorem C24_anchor_points {config : List Desc} {cs : Option (List ConstrDict)} {sp : Space}
    (h : designSpace config cs = .ok sp) (hb : sp.hasBandit = false)
    (hs : ∀ k ∈ kindsOf config, Samplable k)
    (context : Option Context) (hg : ValidContext sp context) (c : Ctx)
    (hc : contextManager sp context = .ok c) (o : DesignOracle) (ho : UnitOracle o) (t : String)
    (ht : t ∈ ["random", "sobol"]) (n : Nat) (hn : 0 < n) (hfound : cs = none ∨ SamplesFound sp c t n o) (dup : Option DupMgr)
    (numAnchor : Nat) (score : Mat → Py (List ℚ)) (hsc : ∀ X, ∃ s, score X = .ok s ∧ s.length = X.length)
    (argsort : List ℚ → List Nat) (ha : IsArgsort argsort) :
    ∃ Z : Mat, FreeDesign sp c t o n (Z.map (freePart c)) ∧ Z.length = n ∧
      (∀ z ∈ Z, ObjDomain (kindsOf config) z ∧ HasContext sp context z) ∧
      (anchorPoints sp (some c) dup false t n numAnchor o score argsort = .error .fullyExplored ↔
        ∀ z ∈ Z, InDup dup z) ∧
      ((∃ z ∈ Z, ¬ InDup dup z) → ∃ (fresh A : Mat) (s : List ℚ),
        fresh = Z.filter (fun z => ¬ InDup dup z) ∧
        anchorPoints sp (some c) dup false t n numAnchor o score argsort
          = .ok (A.map (encodeRow (kindsOf config))) ∧
        (∀ z ∈ A, z ∈ Z ∧ ¬ InDup dup z) ∧
        A.length = min numAnchor fresh.length ∧
        score (fresh.map (encodeRow (kindsOf config))) = .ok s ∧
        A.map some = ((argsort s).take numAnchor).map (fun i => fresh[i]?)) := by
  have hk := space_kinds_eq h
  rw [← hk] at hs ⊢
  have hsh : ScoreShape score := by
    intro X s hX
    obtain ⟨s', h1, h2⟩ := hsc X
    rw [hX] at h1; cases h1; exact h2
  rcases anchorPoints_design h hb hs hg hc ho ht hn false dup numAnchor hsh ha with
    ⟨e, _, h2, h3⟩ | ⟨ds, sp', m, Z, d1, d2, d3, d4, h1, h2, h3, h4⟩
  · exact absurd hfound (not_or.2 ⟨h2, h3⟩)
  · have hfe : Z.filter (fun z => !decide (InDup dup z)) = Z.filter (fun z => ¬ InDup dup z) := by
      apply List.filter_congr; intro z _; simp
    rw [hfe] at h4
    simp only [Bool.false_eq_true, if_false] at h2
    refine ⟨Z, ?_, by rw [← h2.length_eq, h1], ?_, ?_, ?_⟩
    · rw [map_freePart h hb hc h2]
      exact freeDesign_of_keep h hb hc d1 d3 d4
    · intro z hz
      obtain ⟨r, _, hr⟩ := forall₂_mem_right h2 hz
      exact ⟨hr.1, hr.2.1⟩
    · constructor
      · intro herr
        by_contra hcon
        have hall' : ∃ z ∈ Z, ¬ InDup dup z := by
          by_contra hcon'
          exact hcon fun z hz => by_contra fun hn => hcon' ⟨z, hz, hn⟩
        rcases h4 hall' with ⟨e, h5, _⟩ | ⟨s, A, _, _, h7, _⟩
        · obtain ⟨s', h6, _⟩ := hsc ((Z.filter (fun z => ¬ InDup dup z)).map (encodeRow sp.kinds))
          rw [h5] at h6; cases h6
        · rw [herr] at h7; cases h7
      · exact h3
    · intro hex
      rcases h4 hex with ⟨e, h5, _⟩ | ⟨s, A, h5, h6, h7, h8, h9, h10⟩
      · obtain ⟨s', h6, _⟩ := hsc ((Z.filter (fun z => ¬ InDup dup z)).map (encodeRow sp.kinds))
        rw [h5] at h6; cases h6
      · exact ⟨_, A, s, rfl, h7, h10, h9, h5, h8⟩

/-- C24 with constraints, and with or without the uniqueness option: whatever is returned is a
non-empty list of encoded domain points that carry the context and are not known. -/
theorem C24_anchor_points_sound {config : List Desc} {cs : Option (List ConstrDict)} {sp : Space}
    (h : designSpace config cs = .ok sp) (hb : sp.hasBandit = false)
    (hs : ∀ k ∈ kindsOf config, Samplable k)
    (context : Option Context) (hg : ValidContext sp context) (c : Ctx)
    (hc : contextManager sp context = .ok c) (o : DesignOracle) (ho : UnitOracle o) (t : String)
    (ht : t ∈ ["random", "sobol"]) (n : Nat) (hn : 0 < n) (unique : Bool) (dup : Option DupMgr)
    (numAnchor : Nat) (hna : 0 < numAnchor) (score : Mat → Py (List ℚ)) (hsc : ScoreShape score)
    (argsort : List ℚ → List Nat) (ha : IsArgsort argsort) (as : Mat)
    (has : anchorPoints sp (some c) dup unique t n numAnchor o score argsort = .ok as) :
    as ≠ [] ∧ ∀ a ∈ as, ∃ z, GoodRow (kindsOf config) sp context a z ∧ ¬ InDup dup z := by
  rw [← space_kinds_eq h] at hs ⊢
  have := anchorPoints_sound h hb hs hg hc ho ht hn hsc ha has
  exact ⟨this.2 hna, this.1⟩

/-! ## C25: unique random anchor points -/

theorem argsort_range {argsort : List ℚ → List Nat} (ha : IsArgsort argsort) (k : Nat) :
    argsort ((List.range k).map fun i : Nat => (i : ℚ)) = List.range k := by
  obtain ⟨h1, h2⟩ := ha ((List.range k).map fun i : Nat => (i : ℚ))
  simp only [List.length_map, List.length_range] at h1
  have h3 : (argsort ((List.range k).map fun i : Nat => (i : ℚ))).filterMap
      (fun i => ((List.range k).map fun i : Nat => (i : ℚ))[i]?)
      = (argsort ((List.range k).map fun i : Nat => (i : ℚ))).map (fun i : Nat => (i : ℚ)) := by
    generalize hidx : argsort ((List.range k).map fun i : Nat => (i : ℚ)) = idx at *
    have hlt : ∀ i ∈ idx, i < k := fun i hi => by simpa using h1.mem_iff.1 hi
    clear h1 h2 hidx
    induction idx with
    | nil => rfl
    | cons i idx ih =>
      have hi := hlt i (by simp)
      rw [List.filterMap_cons]
      rw [ih (fun j hj => hlt j (by simp [hj]))]
      simp [hi]
  rw [h3] at h2
  have h4 : (argsort ((List.range k).map fun i : Nat => (i : ℚ))).Pairwise (· ≤ ·) := by
    rw [List.pairwise_map] at h2
    exact h2.imp (fun h => by exact_mod_cast h)
  have h5 : (List.range k).Pairwise (· ≤ ·) := List.pairwise_lt_range.imp le_of_lt
  exact h1.eq_of_pairwise (fun a b _ _ h6 h7 => le_antisymm h6 h7) h4 h5

/-- C25. With the uniqueness option the random anchor points are, in increasing lexicographic order
of the values of the free variables and therefore pairwise distinct, the smallest unknown sampled
configurations. `m` are the sampled rows of the free variables. The domain is reported as fully explored exactly if
all sampled configurations are known. Constraints may be present if the samples are found. -/
theorem C25_unique_anchor_points {config : List Desc} {cs : Option (List ConstrDict)} {sp : Space}
    (h : designSpace config cs = .ok sp) (hb : sp.hasBandit = false)
    (hs : ∀ k ∈ kindsOf config, Samplable k)
    (context : Option Context) (hg : ValidContext sp context) (c : Ctx)
    (hc : contextManager sp context = .ok c) (o : DesignOracle) (ho : UnitOracle o)
    (n : Nat) (hn : 0 < n) (hfound : cs = none ∨ SamplesFound sp c "random" n o) (dup : Option DupMgr) (numAnchor : Nat)
    (argsort : List ℚ → List Nat) (ha : IsArgsort argsort) :
    ∃ m : Mat, FreeDesign sp c "random" o n m ∧ m.length = n ∧
      (anchorPoints sp (some c) dup true "random" n numAnchor o randomScores argsort = .error .fullyExplored ↔
        ∀ z, ObjDomain (kindsOf config) z → HasContext sp context z → freePart c z ∈ m → InDup dup z) ∧
      (anchorPoints sp (some c) dup true "random" n numAnchor o randomScores argsort
          = .error .fullyExplored ∨
       ∃ A : Mat, anchorPoints sp (some c) dup true "random" n numAnchor o randomScores argsort
            = .ok (A.map (encodeRow (kindsOf config))) ∧
         (A.map (freePart c)).Pairwise (· < ·) ∧
         (∀ z ∈ A, ObjDomain (kindsOf config) z ∧ HasContext sp context z ∧ ¬ InDup dup z ∧
           freePart c z ∈ m) ∧
         A.length ≤ numAnchor ∧
         ∀ z, ObjDomain (kindsOf config) z → HasContext sp context z → ¬ InDup dup z →
           freePart c z ∈ m → z ∉ A →
           A.length = numAnchor ∧ ∀ a ∈ A, freePart c a < freePart c z) := by
  have hk := space_kinds_eq h
  rw [← hk] at hs ⊢
  have hlen : ∀ z, ObjDomain sp.kinds z → z.length = sp.configExpanded.length := fun z hz => by
    rw [← hz.length_eq, ← (expandConfig_good h hb).length_eq]
  rcases anchorPoints_design h hb hs hg hc ho (t := "random") (by simp) hn true dup numAnchor
    randomScores_shape ha with ⟨e, _, h2, h3⟩ | ⟨ds, sp', m, Z, d1, d2, d3, d4, h1, h2, h3, h4⟩
  · exact absurd hfound (not_or.2 ⟨h2, h3⟩)
  · simp only [if_true] at h2
    have hZf : Z.map (freePart c) = sortedUnique m := map_freePart h hb hc h2
    have hZd : ∀ z ∈ Z, ObjDomain sp.kinds z ∧ HasContext sp context z := by
      intro z hz
      obtain ⟨r, _, hr⟩ := forall₂_mem_right h2 hz
      exact ⟨hr.1, hr.2.1⟩
    have hmem : ∀ z, ObjDomain sp.kinds z → HasContext sp context z → freePart c z ∈ m → z ∈ Z := by
      intro z hz hzc hzm
      rw [← mem_sortedUnique, ← hZf, List.mem_map] at hzm
      obtain ⟨z2, hz2, hfz⟩ := hzm
      obtain ⟨g1, g2⟩ := hZd z2 hz2
      have : z2 = z := by
        rw [freePart_eq hc (hlen _ g1), freePart_eq hc (hlen _ hz)] at hfz
        exact eq_of_free_context hg hc g1 hz g2 hzc hfz
      exact this ▸ hz2
    refine ⟨m, freeDesign_of_keep h hb hc d1 d3 d4, h1, ⟨?_, ?_⟩, ?_⟩
    · intro herr z hz hzc hzm
      by_contra hnd
      rcases h4 ⟨z, hmem z hz hzc hzm, hnd⟩ with ⟨e, h5, _⟩ | ⟨s, A, _, _, h7, _⟩
      · simp [randomScores] at h5
      · rw [herr] at h7
        cases h7
    · intro hall
      refine h3 fun z hz => hall z (hZd z hz).1 (hZd z hz).2 ?_
      rw [← mem_sortedUnique, ← hZf]
      exact List.mem_map_of_mem hz
    by_cases hall : ∀ z ∈ Z, InDup dup z
    · exact .inl (h3 hall)
    · right
      have hall' : ∃ z ∈ Z, ¬ InDup dup z := by
        by_contra hcon
        exact hall fun z hz => by_contra fun hn => hcon ⟨z, hz, hn⟩
      rcases h4 hall' with ⟨e, h5, _⟩ | ⟨s, A, h5, h6, h7, h8, h9, h10⟩
      · simp [randomScores] at h5
      · set fresh := Z.filter (fun z => !decide (InDup dup z)) with hfresh
        simp only [randomScores, Except.ok.injEq, List.length_map] at h5
        subst h5
        rw [argsort_range ha] at h8
        have hA : A = fresh.take numAnchor := by
          have hinj : Function.Injective (some : Vec → Option Vec) := fun a b hab => by simpa using hab
          apply (List.map_injective_iff.2 hinj)
          rw [h8]
          apply List.ext_getElem (by simp)
          intro i g1 g2
          simp at g1 g2
          simp [g2.2]
        have hZpw : (Z.map (freePart c)).Pairwise (· < ·) := hZf ▸ sortedUnique_pairwise m
        have hfpw : (fresh.map (freePart c)).Pairwise (· < ·) :=
          hZpw.sublist (List.Sublist.map _ List.filter_sublist)
        refine ⟨A, h7, ?_, ?_, by rw [h9]; exact min_le_left _ _, ?_⟩
        · rw [hA]
          exact hfpw.sublist (List.Sublist.map _ (List.take_sublist _ _))
        · intro z hz
          obtain ⟨g1, g2⟩ := h10 z hz
          refine ⟨(hZd z g1).1, (hZd z g1).2, g2, ?_⟩
          rw [← mem_sortedUnique, ← hZf]
          exact List.mem_map_of_mem g1
        · intro z hz hzc hzd hzm hzA
          have hzZ : z ∈ Z := hmem z hz hzc hzm
          have hzf : z ∈ fresh := List.mem_filter.2 ⟨hzZ, by simp [hzd]⟩
          rw [hA] at hzA ⊢
          have hsplit := List.take_append_drop numAnchor fresh
          have hzdrop : z ∈ fresh.drop numAnchor := by
            rw [← hsplit, List.mem_append] at hzf
            exact hzf.resolve_left hzA
          constructor
          · have : 0 < (fresh.drop numAnchor).length := List.length_pos_iff.2 (List.ne_nil_of_mem hzdrop)
            simp at this ⊢; omega
          · intro a haA
            rw [← hsplit, List.map_append, List.pairwise_append] at hfpw
            exact hfpw.2.2 _ (List.mem_map_of_mem haA) _ (List.mem_map_of_mem hzdrop)

/-! ## C26: local optimization -/

/-- C26. Started at an admissible unknown point, the result of `apply_optimizer` is an admissible
point that carries the context and is unknown, with its own objective value; it fails only if the
optimizer or the objective does. A known starting point is refused. -/
theorem C26_apply_optimizer {config : List Desc} {cs : Option (List ConstrDict)} {sp : Space}
    (h : designSpace config cs = .ok sp) (hb : sp.hasBandit = false)
    (hne : ∀ k ∈ kindsOf config, NonEmptyDom k) (hvar : kindsOf config ≠ [])
    (context : Option Context) (hg : ValidContext sp context) (c : Ctx)
    (hc : contextManager sp context = .ok c) (dup : Option DupMgr)
    (opt : (Vec → Py ℚ) → Vec → Py Vec) (hopt : OptShape opt) (f : Vec → Py ℚ) (x0 z0 : Vec)
    (hx0 : GoodRow (kindsOf config) sp context x0 z0) :
    (InDup dup z0 → applyOptimizer sp (some c) dup opt f x0 = .error .valueError) ∧
    (¬ InDup dup z0 →
      (∀ r, applyOptimizer sp (some c) dup opt f x0 = .ok r →
        ∃ z, GoodRow (kindsOf config) sp context r.1 z ∧ ¬ InDup dup z ∧ f r.1 = .ok r.2) ∧
      ((∀ g x, ∃ y, opt g x = .ok y) → (∀ x, ∃ v, f x = .ok v) →
        ∃ r, applyOptimizer sp (some c) dup opt f x0 = .ok r)) := by
  rw [← space_kinds_eq h] at hne hvar hx0 ⊢
  obtain ⟨h1, h2⟩ := applyOptimizer_spec h hb hne hvar hg hc dup hopt f hx0
  refine ⟨h1, fun hd => ?_⟩
  obtain ⟨xs, -, h3⟩ := h2 hd
  constructor
  · intro r hr
    rcases h3 with ⟨e, -, he⟩ | ⟨y, x, z, -, hgr, hdz, heq⟩
    · rw [hr] at he; cases he
    · rw [hr] at heq
      cases hf : f x with
      | error e => simp [hf] at heq
      | ok v =>
        simp only [hf, Except.ok.injEq] at heq
        subst heq
        exact ⟨z, hgr, hdz, hf⟩
  · intro ho hf
    rcases h3 with ⟨e, he, -⟩ | ⟨y, x, z, -, hgr, hdz, heq⟩
    · obtain ⟨y, hy⟩ := ho (fNoContext (some c) sp f) xs
      rw [hy] at he; cases he
    · obtain ⟨v, hv⟩ := hf x
      exact ⟨_, by rw [heq, hv]⟩

/-- C26. The optimizer is not ignored: if it returns the free coordinates of an admissible point `z`
then the result is `z`, unless `z` is known, when it is the starting point. -/
theorem C26_uses_optimizer {config : List Desc} {cs : Option (List ConstrDict)} {sp : Space}
    (h : designSpace config cs = .ok sp) (hb : sp.hasBandit = false)
    (hne : ∀ k ∈ kindsOf config, NonEmptyDom k) (hvar : kindsOf config ≠ [])
    (context : Option Context) (hg : ValidContext sp context) (c : Ctx)
    (hc : contextManager sp context = .ok c) (dup : Option DupMgr)
    (opt : (Vec → Py ℚ) → Vec → Py Vec) (f : Vec → Py ℚ) (x0 z0 x z y : Vec)
    (hx0 : GoodRow (kindsOf config) sp context x0 z0) (hd0 : ¬ InDup dup z0)
    (hx : GoodRow (kindsOf config) sp context x z)
    (hy : c.noncontextIndex.map (fun i => x[i]?) = y.map some)
    (hopt : ∀ g x', opt g x' = .ok y) (v0 v : ℚ) (hv0 : f x0 = .ok v0) (hv : f x = .ok v) :
    applyOptimizer sp (some c) dup opt f x0
      = .ok (if InDup dup z then (x0, v0) else (x, v)) := by
  rw [← space_kinds_eq h] at hne hvar hx0 hx
  obtain ⟨rfl, hz0, hctx0⟩ := hx0
  obtain ⟨rfl, hz, hctx⟩ := hx
  obtain ⟨xs, hxs, hxl⟩ := x0NoContext_ok hc hz0
  obtain ⟨y', hy', hexp⟩ := x0NoContext_expand h hb hg hc hz hctx
  have hyy : y = y' := map_some_inj (hy.symm.trans (mapE_npGet_map_some hy'))
  subst hyy
  have hr : sp.roundOptimum2d [encodeRow sp.kinds z] = .ok [encodeRow sp.kinds z] := by
    have := C04_round_fixed h hb (space_kinds_eq h ▸ hne) (space_kinds_eq h ▸ hvar)
      (encodeRow sp.kinds z) (space_kinds_eq h ▸ encodeRow_modelDomain hz)
    simpa [Space.roundOptimum2d] using this
  have e0 := isDup_encode h hb dup hz0
  have e1 := isDup_encode h hb dup hz
  by_cases hin : InDup dup z
  · simp [applyOptimizer, hxs, e0, hd0, hopt, addContext, hexp, hr, e1, hin, hv0]
  · simp [applyOptimizer, hxs, e0, hd0, hopt, addContext, hexp, hr, e1, hin, hv]

/-! ## C27: the acquisition optimizer -/

/-- the value returned by `apply_optimizer` is the one of the location returned -/
theorem applyOptimizer_value {sp : Space} {ctx : Option Ctx} {dup : Option DupMgr}
    {opt : (Vec → Py ℚ) → Vec → Py Vec} {f : Vec → Py ℚ} {x0 : Vec} {r : Vec × ℚ}
    (h : applyOptimizer sp ctx dup opt f x0 = .ok r) : f r.1 = .ok r.2 := by
  unfold applyOptimizer at h
  repeat' split at h
  all_goals first
    | (simp at h; done)
    | (rename_i hv; simp only [Except.ok.injEq] at h; subst h; exact hv)

/-- C27. The optimizer returns, with the value of the acquisition there, the best one (the first, if
there are several) of the points that are found by local optimization from the anchor points. -/
theorem C27_best_candidate (sp : Space) (c : Ctx) (dup : Option DupMgr) (op : AcqOptions)
    (o : AcqOracle) (f : Vec → Py ℚ) (r : Vec × ℚ) (hr : acqOptimize sp c dup op o f = .ok r) :
    ∃ (anchors : Mat) (pts : List (Vec × ℚ)) (i : Nat), acqAnchors sp c dup op o f = .ok anchors ∧
      pts.length = anchors.length ∧
      (∀ (k : Nat) (a : Vec), anchors[k]? = some a →
        ∃ p, pts[k]? = some p ∧ applyOptimizer sp (some c) dup (o.opt k) f a = .ok p) ∧
      (∀ p ∈ pts, f p.1 = .ok p.2) ∧ FirstMin Prod.snd pts i r := by
  unfold acqOptimize at hr
  cases h1 : chooseOptimizer op.optimizerName with
  | error e => simp [h1] at hr
  | ok u =>
    simp only [h1] at hr
    cases h2 : acqAnchors sp c dup op o f with
    | error e => simp [h2] at hr
    | ok as =>
      simp only [h2] at hr
      cases h3 : optimizedPoints sp (some c) dup o.opt f as with
      | error e => simp [h3] at hr
      | ok pts =>
        simp only [h3] at hr
        cases h4 : argmin (pts.map Prod.snd) with
        | error e => simp [h4] at hr
        | ok i =>
          simp only [h4] at hr
          refine ⟨as, pts, i, rfl, by rw [mapE_length h3]; simp, ?_, ?_, npGet_ok.1 hr, ?_⟩
          · intro k a hk
            have hz : as.zipIdx[k]? = some (a, k) := by simp [hk]
            have hkl : k < pts.length := by
              rw [mapE_length h3, List.length_zipIdx]
              exact (List.getElem?_eq_some_iff.1 hk).1
            refine ⟨pts[k], List.getElem?_eq_getElem hkl, ?_⟩
            have h5 := mapE_eq_ok.1 h3
            have := List.forall₂_iff_get.1 h5
            have h6 := this.2 k (by simpa using (List.getElem?_eq_some_iff.1 hk).1) hkl
            simp only [List.get_eq_getElem] at h6
            have h7 : as.zipIdx[k]'(by simpa using (List.getElem?_eq_some_iff.1 hk).1) = (a, k) :=
              (List.getElem?_eq_some_iff.1 hz).2
            rw [h7] at h6
            exact h6
          · intro p hp
            obtain ⟨q, -, hq⟩ := mapE_ok_mem h3 hp
            exact applyOptimizer_value hq
          · have hne : pts.map Prod.snd ≠ [] := by
              intro hc'
              rw [hc'] at h4; simp [argmin] at h4
            obtain ⟨j, v, e1, e2, e3, e4⟩ := argmin_spec hne
            rw [h4] at e1; injection e1 with e1; subst e1
            rw [List.getElem?_map, npGet_ok.1 hr] at e3
            simp only [Option.map_some, Option.some.injEq] at e3
            subst e3
            intro j y hy
            exact e4 j y.2 (by simp [hy])

/-- C27. With each of the documented optimizers, a result exists whenever there are anchor points and the local
optimizations from them return; every other name is refused. -/
theorem C27_candidate_exists (sp : Space) (c : Ctx) (dup : Option DupMgr) (op : AcqOptions)
    (o : AcqOracle) (f : Vec → Py ℚ) :
    (op.optimizerName ∈ ["lbfgs", "DIRECT", "CMA"] → ∀ anchors, acqAnchors sp c dup op o f = .ok anchors →
      anchors ≠ [] → (∀ (k : Nat) (a : Vec), anchors[k]? = some a →
        ∃ p, applyOptimizer sp (some c) dup (o.opt k) f a = .ok p) →
      ∃ r, acqOptimize sp c dup op o f = .ok r) ∧
    (op.optimizerName ∉ ["lbfgs", "DIRECT", "CMA"] →
      acqOptimize sp c dup op o f = .error .invalidVariableName) := by
  constructor
  · intro hn anchors ha hne hall
    have h1 : chooseOptimizer op.optimizerName = .ok () := by
      simp only [List.mem_cons, List.not_mem_nil, or_false] at hn
      unfold chooseOptimizer
      rw [if_pos hn]
    obtain ⟨pts, h3⟩ : ∃ pts, optimizedPoints sp (some c) dup o.opt f anchors = .ok pts := by
      apply mapE_total
      intro p hp
      obtain ⟨k, hk⟩ := List.getElem?_of_mem hp
      rw [List.getElem?_zipIdx] at hk
      simp only [Nat.zero_add, Option.map_eq_some_iff] at hk
      obtain ⟨a, ha', rfl⟩ := hk
      exact hall k a ha'
    have hp : pts.map Prod.snd ≠ [] := by
      have := mapE_length h3
      intro h
      rw [List.map_eq_nil_iff] at h
      subst h
      simp only [List.length_nil, List.length_zipIdx] at this
      exact hne (List.length_eq_zero_iff.1 this.symm)
    obtain ⟨i, v, e1, e2, -, -⟩ := argmin_spec hp
    rw [List.length_map] at e2
    refine ⟨pts[i], ?_⟩
    unfold acqOptimize
    simp only [h1, ha, h3, e1]
    exact npGet_ok.2 (List.getElem?_eq_getElem e2)
  · intro hn
    simp only [List.mem_cons, List.not_mem_nil, or_false] at hn
    unfold acqOptimize chooseOptimizer
    rw [if_neg hn]

/-! ## C28: sequential suggestions -/

theorem mem_dupMgr_of {X : Mat} {pending ignored : Option Mat} {z : Vec} :
    (z ∈ X → z ∈ (dupMgr X pending ignored).points) ∧
    (¬ AllZero pending → z ∈ pending.getD [] → z ∈ (dupMgr X pending ignored).points) ∧
    (¬ AllZero ignored → z ∈ ignored.getD [] → z ∈ (dupMgr X pending ignored).points) := by
  have key : ∀ (m : Option Mat), ¬ AllZero m → z ∈ m.getD [] → optAny m = true := by
    intro m hm hz
    cases m with
    | none => simp at hz
    | some rows => exact npAny_of_not_allZero hm (List.ne_nil_of_mem hz)
  refine ⟨?_, ?_, ?_⟩
  · intro h; simp only [dupMgr]; split_ifs <;> simp [h]
  · intro h1 h2; simp only [dupMgr, key _ h1 h2]; split_ifs <;> simp_all
  · intro h1 h2; simp only [dupMgr, key _ h1 h2]; split_ifs <;> simp_all

/-- A suggested point is none of the evaluated, pending and ignored ones. All-zero matrices of
pending or ignored points are not taken into account (C21). -/
def Fresh (X : Mat) (pending ignored : Option Mat) (z : Vec) : Prop :=
  z ∉ X ∧ (¬ AllZero pending → z ∉ pending.getD []) ∧ (¬ AllZero ignored → z ∉ ignored.getD [])

theorem fresh_of_not_inDup {X : Mat} {pending ignored : Option Mat} {z : Vec}
    (h : ¬ InDup (some (dupMgr X pending ignored)) z) : Fresh X pending ignored z := by
  have h' : z ∉ (dupMgr X pending ignored).points := fun hm => h ⟨_, rfl, hm⟩
  exact ⟨fun hz => h' (mem_dupMgr_of.1 hz), fun hp hz => h' (mem_dupMgr_of.2.1 hp hz),
    fun hp hz => h' (mem_dupMgr_of.2.2 hp hz)⟩

/-- C28 (partial: pending or ignored points given as a matrix of zeros only are not avoided). The
sequential evaluator suggests one point of the domain; it has the values of the context; with
de-duplication it is none of the evaluated, pending and ignored points. -/
theorem C28_sequential_partial {config : List Desc} {cs : Option (List ConstrDict)} {sp : Space}
    (h : designSpace config cs = .ok sp) (hb : sp.hasBandit = false)
    (hs : ∀ k ∈ kindsOf config, Samplable k) (hvar : kindsOf config ≠ [])
    (context : Option Context) (hg : ValidContext sp context) (env : EvalEnv)
    (hop : GoodOptions env.op) (ho : GoodAcq env.oracle.acq) (deDup : Bool) (X : Mat)
    (pending ignored : Option Mat) (m : Mat)
    (hm : computeNext .sequential env sp context deDup X pending ignored = .ok m) :
    ∃ z, m = [z] ∧ ObjDomain (kindsOf config) z ∧ HasContext sp context z ∧
      (deDup = true → Fresh X pending ignored z) := by
  rw [← space_kinds_eq h] at hs hvar ⊢
  unfold computeNext at hm
  cases hc : contextManager sp context with
  | error e => simp [hc] at hm
  | ok c =>
    simp only [hc, computeBatch, sequentialBatch] at hm
    generalize hdup : (if deDup = true then some (dupMgr X pending ignored) else none) = dup at hm
    cases hr : acqOptimize sp c dup env.op env.oracle.acq env.f with
    | error e => simp [hr] at hm
    | ok r =>
      obtain ⟨x, v⟩ := r
      simp only [hr] at hm
      obtain ⟨z, ⟨hx, hz, hctx⟩, hd, -⟩ := acqOptimize_sound h hb hs hvar hg hc hop ho hr
      simp only at hx
      subst hx
      rw [zipInputs_encode h hb hz] at hm
      injection hm with hm
      subst hm
      refine ⟨z, rfl, hz, hctx, ?_⟩
      intro hdd
      rw [hdd, if_pos rfl] at hdup
      subst hdup
      exact fresh_of_not_inDup hd

/-- C28, liveness. In a space without constraints, or if the samples of the acquisition optimizer are found (see
`C28_constrained_suggestion_exists`), with a known optimizer and components that do not raise, there is a suggestion unless the domain is reported as fully explored; without
de-duplication there always is one. -/
theorem C28_suggestion_exists {config : List Desc} {cs : Option (List ConstrDict)} {sp : Space}
    (h : designSpace config cs = .ok sp) (hb : sp.hasBandit = false)
    (hs : ∀ k ∈ kindsOf config, Samplable k) (hvar : kindsOf config ≠ [])
    (context : Option Context) (hg : ValidContext sp context) (env : EvalEnv)
    (hop : GoodOptions env.op) (hname : env.op.optimizerName ∈ ["lbfgs", "DIRECT", "CMA"])
    (hlog : env.op.anchorLogic ∈ ["max_objective", "thompson_sampling"])
    (ho : GoodAcq env.oracle.acq) (hf : ∀ x, ∃ v, env.f x = .ok v)
    (hopt : ∀ k g x, ∃ y, env.oracle.acq.opt k g x = .ok y)
    (hth : ∀ X, ∃ s, env.oracle.acq.thompson X = .ok s) (deDup : Bool) (X : Mat)
    (hfound : cs = none ∨ ∀ c, contextManager sp context = .ok c → AcqSampled sp c env.op env.oracle.acq.design)
    (pending ignored : Option Mat) :
    (∃ z, computeNext .sequential env sp context deDup X pending ignored = .ok [z]) ∨
      (deDup = true ∧
        computeNext .sequential env sp context deDup X pending ignored = .error .fullyExplored) := by
  obtain ⟨c, -, hc, -⟩ := C23_context_partition h hb (fun k hk => samplable_nonEmpty (hs k hk))
    context (validContext_good hg)
  rw [← space_kinds_eq h] at hs hvar
  unfold computeNext
  simp only [hc, computeBatch, sequentialBatch]
  generalize hdup : (if deDup = true then some (dupMgr X pending ignored) else none) = dup
  rcases acqOptimize_total h hb hs hvar hg hc dup hop hname hlog ho hf hopt hth (hfound.imp_right fun h => h c hc) with
    ⟨h0, hr⟩ | ⟨⟨x, v⟩, hr⟩
  · right
    cases deDup with
    | false => exact absurd hdup.symm h0
    | true => exact ⟨rfl, by simp only [hr]⟩
  · left
    obtain ⟨z, ⟨hx, hz, hctx⟩, hd, -⟩ := acqOptimize_sound h hb hs hvar hg hc hop ho hr
    simp only at hx
    subst hx
    exact ⟨z, by simp only [hr]; exact zipInputs_encode h hb hz⟩

/-! ### Concrete environments -/

/-- a stable sort of the positions -/
def exArgsort (s : List ℚ) : List Nat :=
  (List.range s.length).insertionSort (fun i j => s.getD i 0 ≤ s.getD j 0)

theorem exArgsort_ok : IsArgsort exArgsort := by
  intro s
  have hperm : (exArgsort s).Perm (List.range s.length) := List.perm_insertionSort _ _
  refine ⟨hperm, ?_⟩
  have h1 : (exArgsort s).Pairwise (fun i j => s.getD i 0 ≤ s.getD j 0) := by
    have : Std.Total (fun i j : Nat => s.getD i 0 ≤ s.getD j 0) := ⟨fun _ _ => le_total _ _⟩
    have : IsTrans Nat (fun i j : Nat => s.getD i 0 ≤ s.getD j 0) := ⟨fun _ _ _ => le_trans⟩
    exact List.pairwise_insertionSort _ _
  have hlt : ∀ i ∈ exArgsort s, i < s.length := fun i hi => by simpa using hperm.mem_iff.1 hi
  generalize exArgsort s = idx at *
  have : idx.filterMap (fun i => s[i]?) = idx.map (fun i => s.getD i 0) := by
    clear h1 hperm
    induction idx with
    | nil => rfl
    | cons i idx ih =>
      have hi := hlt i (by simp)
      rw [List.filterMap_cons, ih (fun j hj => hlt j (by simp [hj]))]
      simp [hi]
  rw [this, List.pairwise_map]
  exact h1

theorem exOracle_unit : UnitOracle exOracle := by
  refine ⟨?_, ?_, ?_⟩
  · intro i k r
    simp only [exOracle]
    constructor
    · positivity
    · rw [div_le_one (by positivity)]
      have : (0 : ℚ) ≤ (k : ℚ) + r + i := by positivity
      linarith
  · intro r k
    simp only [exOracle]
    constructor
    · positivity
    · rw [div_le_one (by positivity)]; push_cast; linarith
  · intro r k
    simp only [exOracle]
    constructor
    · positivity
    · rw [div_le_one (by positivity)]
      have : (0 : ℚ) ≤ (r : ℚ) + k := by positivity
      linarith

/-- random designs, and a local optimizer that subtracts one from every coordinate -/
def exAcq : AcqOracle where
  design := exOracle
  argsort := exArgsort
  thompson := fun X => .ok (X.map fun r => r.headD 0)
  opt := fun _ _ x => .ok (x.map (· - 1))

theorem exAcq_good : GoodAcq exAcq := by
  refine ⟨exOracle_unit, exArgsort_ok, ?_, ?_⟩
  · intro X s h
    simp only [exAcq, Except.ok.injEq] at h
    subst h; simp
  · intro k g x y h
    simp only [exAcq, Except.ok.injEq] at h
    subst h; simp

/-- an environment with few samples and the acquisition `sum` -/
def exEnv : EvalEnv where
  op := { numSamplesObjective := 4, numSamplesThompson := 4, numAnchor := 2 }
  f := fun x => .ok x.sum
  oracle := ⟨exAcq, exAcq⟩
  numSamplesRandom := 6
  numSamplesThompson := 6
  fLP := fun _ x => .ok x.sum
  acqLP := fun _ => exAcq
  lpConsts := .ok (1, 0)
  lpState := ⟨none, none⟩

example : GoodOptions exEnv.op := ⟨by decide, by decide, by decide⟩

/-- the context of the examples: the categorical variable and one continuous one -/
def exContext : Option Context := some [("var_2", 1), ("x_2", 1/2)]

example : ∃ sp, designSpace exConfig none = .ok sp ∧ ValidContext sp exContext := by
  refine ⟨_, rfl, by decide, ?_⟩
  intro nv hnv
  simp only [exContext, Option.getD_some, List.mem_cons, List.not_mem_nil, or_false] at hnv
  rcases hnv with rfl | rfl
  · exact ⟨_, rfl, 1, by decide, by norm_num⟩
  · exact ⟨_, rfl, by show (-1 : ℚ) ≤ 1/2; norm_num, by show (1/2 : ℚ) ≤ 1; norm_num⟩

/-- Anchor points with a context and duplicates; and a fully explored domain. -/
example : ((designSpace exConfig none).bind fun sp => (contextManager sp exContext).bind fun c =>
    anchorPoints sp (some c) (some ⟨[[0, 1/2, 7, 1]]⟩) false "random" 4 2 exOracle
      (fun X => .ok (X.map List.sum)) exArgsort)
    = .ok [[-3/5, 1/2, 0, 0, 1, 0], [0, 1/2, 0, 0, 1, 0]] := by decide +kernel

example : ((designSpace [{ name := some "d", type := some "discrete", domain := some (.flat [0, 1]) }]
      none).bind fun sp => (contextManager sp none).bind fun c =>
    anchorPoints sp (some c) (some ⟨[[1], [0]]⟩) false "random" 4 2 exOracle
      (fun X => .ok (X.map List.sum)) exArgsort) = .error .fullyExplored := by decide +kernel

/-- C25 in a case with repeated samples: 6 samples of a variable with 3 values -/
example : ((designSpace [{ name := some "d", type := some "discrete", domain := some (.flat [3, 0, 7]) }]
      none).bind fun sp => (contextManager sp none).bind fun c =>
    anchorPoints sp (some c) (some ⟨[[3]]⟩) true "random" 6 5 exOracle randomScores exArgsort)
    = .ok [[0], [7]] := by decide +kernel

/-- Sequential suggestion with context and de-duplication. -/
example : ((designSpace exConfig none).bind fun sp =>
    computeNext .sequential exEnv sp exContext true [[-1, 1/2, 0, 1]] none (some [[-1, 1/2, 3, 1]]))
    = .ok [[-3/5, 1/2, 0, 1]] := by decide +kernel

/-- C28 (negation of the full property). Variable with the values 0 and 1; 1 has been evaluated and
0 is pending: 0 is suggested. -/
theorem C28_pending_zero_counterexample :
    ((designSpace [{ name := some "d", type := some "discrete", domain := some (.flat [0, 1]) }]
      none).bind fun sp => computeNext .sequential exEnv sp none true [[1]] (some [[0]]) none)
    = .ok [[0]] := by decide +kernel

/-- C26 / C28: a context value outside of the domain is accepted and changed by rounding; the
suggestion does not have the value of the context. -/
theorem C28_context_outside_counterexample :
    ((designSpace [{ name := some "x", type := some "continuous", domain := some (.flat [0, 1]) },
        { name := some "y", type := some "continuous", domain := some (.flat [0, 1]) }] none).bind
      fun sp => computeNext .sequential exEnv sp (some [("y", 5)]) false [] none none)
    = .ok [[0, 1]] := by decide +kernel

end GPyOpt.Props
