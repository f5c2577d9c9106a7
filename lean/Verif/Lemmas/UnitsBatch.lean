import Verif.Lemmas.UnitsSuggest

/-! # Lemmas about other units of the variables: anchor points, batches -/

namespace GPyOpt

open Spec Props

namespace Spec.OtherUnits

variable {us : List (ℚ × ℚ)} {sp sp' : Space}

theorem pick_keep (h : OtherUnits us sp sp') {context : Option Context} {c : Ctx}
    (hc : GPyOpt.contextManager sp context = .ok c) :
    pickUnits us c.nocontextIndexObj = keep (freePos c) 0 us := by
  obtain ⟨config, cs, hd⟩ := h.built
  have hl : us.length = sp.configExpanded.length := by
    rw [(expandConfig_good hd h.noBandit).length_eq, h.rescaled.length.1]; simp [Space.kinds]
  rw [← keep_free hc hl]
  obtain ⟨vs, es, hok⟩ := contextManager_ok hc
  have hlt : ∀ i ∈ c.nocontextIndexObj, i < us.length := by
    intro i hi
    rw [hok.freeObj, List.mem_filter] at hi
    rw [hl]; exact List.mem_range.1 hi.1
  unfold pickUnits
  generalize c.nocontextIndexObj = idx at hlt
  induction idx with
  | nil => rfl
  | cons i idx ih =>
    rw [List.filterMap_cons, List.getElem?_eq_getElem (hlt i (by simp)), List.map_cons,
      ih fun j hj => hlt j (by simp [hj])]
    simp [List.getD_eq_getElem?_getD, hlt i (by simp)]

/-- The space of the free variables in other units. -/
theorem free (h : OtherUnits us sp sp') {context : Option Context} {c : Ctx}
    (hc : GPyOpt.contextManager sp context = .ok c) {c' : Ctx}
    (hc' : ∃ context', GPyOpt.contextManager sp' context' = .ok c')
    (hobj : c'.contextIndexObj = c.contextIndexObj) :
    ∃ spF spF', anchorSpace sp (some c) = .ok (spF, some c) ∧
      anchorSpace sp' (some c') = .ok (spF', some c') ∧
      OtherUnits (pickUnits us c.nocontextIndexObj) spF spF' ∧
      spF.kinds = keep (freePos c) 0 sp.kinds ∧
      spF.constraints = sp.constraints.map (List.map fixConstr) ∧
      spF'.constraints = sp'.constraints.map (List.map fixConstr) := by
  obtain ⟨config, cs, hd⟩ := h.built
  obtain ⟨config', cs', hd'⟩ := h.built'
  obtain ⟨context', hc'⟩ := hc'
  obtain ⟨ds, spF, a1, a2, a3, a4⟩ := anchorSpace_ok hd h.noBandit hc
  obtain ⟨ds', spF', b1, b2, b3, b4⟩ := anchorSpace_ok hd' h.noBandit' hc'
  obtain ⟨_, _, _, _, _, _, e1⟩ := designSpace_ok a2
  obtain ⟨_, _, _, _, _, _, e2⟩ := designSpace_ok b2
  have hfp : freePos c' = freePos c := by unfold freePos; rw [hobj]
  rw [hfp] at b4
  refine ⟨spF, spF', a1, b1, ⟨⟨ds, _, a2⟩, ⟨ds', _, b2⟩, a3, b3, ?_, ?_⟩, a4, e1, e2⟩
  · rw [h.pick_keep hc]
    have := keep_forall₂ (freePos c) h.units 0
    change List.Forall₂ UnitFor _ spF.kinds
    rw [a4]
    exact this
  · rw [h.pick_keep hc]
    change spF'.kinds = List.zipWith convKind _ spF.kinds
    rw [a4, b4]
    change keep (freePos c) 0 (sp'.expanded.map EVar.kind) = _
    rw [h.kinds]
    rcases keep_zipWith (freePos c) convKind us (sp.expanded.map EVar.kind) 0 with e | e
    · exact e
    · exact absurd (by simpa using h.rescaled.length.1) e

theorem colUnits_blocks (h : OtherUnits us sp sp') :
    sp.expanded.map (fun v => pickUnits (colUnits us sp.kinds) v.idxModel)
      = List.zipWith (fun u k => List.replicate (width k) u) us sp.kinds := by
  have hl := h.rescaled.length
  apply List.ext_getElem (by simp [Space.kinds, hl.1])
  intro i h1 h2
  have hi : i < sp.expanded.length := by simpa using h1
  have hiu : i < us.length := by omega
  have hv := (List.forall₂_iff_get.1 h.vars_conv).2 i hi (by omega)
  obtain ⟨config, cs, hd⟩ := h.built
  have l1 := (C07_layout hd h.noBandit i _ (List.getElem?_eq_getElem hi)).1
  have := hv.cols
  simp only [List.get_eq_getElem, l1] at this
  simp only [List.getElem_map, List.getElem_zipWith, Space.kinds, pickUnits]
  simp only [Space.kinds] at this
  rw [this]
  simp [List.getD_eq_getElem?_getD, hiu]

/-- The units of the free columns are the units of the columns of the free variables. -/
theorem free_cols (h : OtherUnits us sp sp') {context : Option Context} {c : Ctx}
    (hc : GPyOpt.contextManager sp context = .ok c) (hnd : ((context.getD []).map Prod.fst).Nodup) :
    colUnits (pickUnits us c.nocontextIndexObj) (keep (freePos c) 0 sp.kinds)
      = pickUnits (colUnits us sp.kinds) c.noncontextIndex := by
  obtain ⟨config, cs, hd⟩ := h.built
  obtain ⟨vs, es, hok⟩ := contextManager_ok hc
  rw [(hok.columns hd h.noBandit hnd).2.2.2, h.pick_keep hc]
  unfold colUnits
  have h1 : ∀ L : List (List Nat), pickUnits (colUnits us sp.kinds) L.flatten
      = (L.map (pickUnits (colUnits us sp.kinds))).flatten := by
    intro L; exact List.map_flatten
  change _ = pickUnits (colUnits us sp.kinds) (keep (freePos c) 0 (sp.expanded.map EVar.idxModel)).flatten
  rw [h1, ← keep_map, List.map_map]
  have h2 := h.colUnits_blocks
  simp only [Function.comp_def]
  rw [h2]
  rcases keep_zipWith (freePos c) (fun u k => List.replicate (width k) u) us sp.kinds 0 with e | e
  · rw [e]
  · exact absurd (by simpa [Space.kinds] using h.rescaled.length.1) e

theorem objectiveToModelFrom_length {us : List (ℚ × ℚ)} {ex ex' : List EVar} (h : Rescaled us ex ex') :
    ∀ {x : Vec} {i : Nat} {y : Vec}, objectiveToModelFrom x i ex = .ok y →
      y.length = (ex.map fun v => v.kind.dimInModel).sum := by
  induction h with
  | nil => intro x i y hy; simp [objectiveToModelFrom] at hy; subst hy; rfl
  | @cons u us v v' vs vs' h1 h2 _ ih =>
    intro x i y hy
    simp only [objectiveToModelFrom] at hy
    cases hx : npGet x i with
    | error e => simp [hx] at hy
    | ok xi =>
      simp only [hx] at hy
      cases he : v.kind.objectiveToModel xi with
      | error e => simp [he] at hy
      | ok entry =>
        simp only [he] at hy
        cases hr : objectiveToModelFrom x (i + 1) vs with
        | error e => simp [hr] at hy
        | ok rest =>
          simp only [hr, Except.ok.injEq] at hy
          subst hy
          rw [List.length_append, ih hr, objectiveToModel_length he, List.map_cons, List.sum_cons,
            dimInModel_width]

theorem unzipInputs_length (h : OtherUnits us sp sp') {X m : Mat} (hm : sp.unzipInputs X = .ok m) :
    ∀ r ∈ m, r.length = sp.modelDim ∨ r = [] := by
  simp only [Space.unzipInputs, h.noBandit, Bool.false_eq_true, if_false] at hm
  obtain ⟨m0, h1, rfl⟩ := Except_map_eq_ok.1 hm
  intro r hr
  cases m0 with
  | nil => right; simpa [atleast2d] using hr
  | cons a m0 =>
    left
    rw [mapE_eq_ok] at h1
    obtain ⟨x, -, hx⟩ := forall₂_mem_right h1 hr
    exact objectiveToModelFrom_length h.rescaled (sp.objectiveToModel_of h.noBandit x ▸ hx)

theorem constraintOf_fix (c : ConstrDict) : constraintOf (fixConstr c) = constraintOf c := by
  unfold fixConstr constraintOf
  cases h0 : c.constrain with
  | none => simp only [h0]
  | some f => rfl

theorem SameConstraints_fix {vs : List (ℚ × ℚ)} {c c' : Option (List ConstrDict)}
    (h : SameConstraints vs c c') :
    SameConstraints vs (c.map (List.map fixConstr)) (c'.map (List.map fixConstr)) := by
  cases h with
  | none => exact .none
  | some h =>
    refine .some ?_
    induction h with
    | nil => exact .nil
    | cons h1 _ ih =>
      refine .cons ?_ ih
      unfold SameVerdict at h1 ⊢
      rw [constraintOf_fix, constraintOf_fix]
      exact h1

/-- A context and its manager in both units. -/
structure Managed (us : List (ℚ × ℚ)) (sp sp' : Space) (c : Ctx) : Prop where
  ctx : ∃ context, GPyOpt.contextManager sp context = .ok c ∧ ((context.getD []).map Prod.fst).Nodup
  ctx' : ∃ context', GPyOpt.contextManager sp' context' = .ok (convCtx (colUnits us sp.kinds) c)
  constraints : SameConstraints (pickUnits us c.nocontextIndexObj) sp.constraints sp'.constraints

theorem Managed.covers {c : Ctx} (hm : Managed us sp sp' c) (h : OtherUnits us sp sp') : Covers sp c := by
  obtain ⟨context, hc, -⟩ := hm.ctx
  exact h.covers hc

theorem anchorSamples (h : OtherUnits us sp sp') {c : Ctx} (hm : Managed us sp sp' c) (unique : Bool)
    (t : String) (n : Nat) (o : DesignOracle) :
    anchorSamples sp' (some (convCtx (colUnits us sp.kinds) c)) unique t n o
      = (anchorSamples sp (some c) unique t n o).map (List.map (convRow (colUnits us sp.kinds))) := by
  have hcov := hm.covers h
  obtain ⟨context, hc, hnd⟩ := hm.ctx
  obtain ⟨spF, spF', a1, a2, hF, hk, e1, e2⟩ := h.free hc hm.ctx' rfl
  have hcF : SameConstraints (pickUnits us c.nocontextIndexObj) spF.constraints spF'.constraints := by
    rw [e1, e2]; exact SameConstraints_fix hm.constraints
  have hcols := h.free_cols hc hnd
  rw [← hk] at hcols
  have hdim : spF.modelDim = c.noncontextIndex.length := by
    rw [← hF.cols_length, hcols, pickUnits_length]
  unfold GPyOpt.anchorSamples
  rw [a1, a2]
  simp only [hF.initialDesign hcF]
  cases GPyOpt.initialDesign t spF o n with
  | error e => rfl
  | ok X =>
    simp only [Except_map_ok, List.map_eq_nil_iff, sortedUnique_conv hF.pos, hF.unzipInputs, hcols]
    have key : ∀ Z : Mat, (match (spF.unzipInputs Z).map
          (List.map (convRow (pickUnits (colUnits us sp.kinds) c.noncontextIndex))) with
        | .error e => (.error e : Py Mat)
        | .ok X => mapE (addContext (some (convCtx (colUnits us sp.kinds) c)) sp') X)
        = (match spF.unzipInputs Z with
          | .error e => (.error e : Py Mat)
          | .ok X => mapE (addContext (some c) sp) X).map (List.map (convRow (colUnits us sp.kinds))) := by
      intro Z
      cases hu : spF.unzipInputs Z with
      | error e => rfl
      | ok m =>
        simp only [Except_map_ok]
        refine mapE_conv m fun r hr => ?_
        exact h.expandVector hcov (by rw [← hdim]; exact hF.unzipInputs_length hu r hr)
    cases unique with
    | false => exact key X
    | true =>
      by_cases hX : X = []
      · simp [hX]
      · simp only [hX, if_false, if_true]
        exact key (sortedUnique X)

theorem nonDuplicates_conv (cu : List (ℚ × ℚ)) (X : Mat) : ∀ flags : List Bool,
    nonDuplicates (X.map (convRow cu)) flags = (nonDuplicates X flags).map (convRow cu) := by
  induction X with
  | nil => intro flags; rfl
  | cons x X ih =>
    intro flags
    cases flags with
    | nil => rfl
    | cons b flags =>
      have := ih flags
      simp only [nonDuplicates, List.map_cons, List.zip_cons_cons, List.filterMap_cons] at this ⊢
      cases b <;> simp [this]

theorem mapE_npGet_map {α β : Type} (g : α → β) (l : List α) (idx : List Nat) :
    mapE (npGet (l.map g)) idx = (mapE (npGet l) idx).map (List.map g) := by
  have := mapE_conv (f := npGet l) (f' := npGet (l.map g)) (g := id) (k := g) idx fun i _ => by
    simp only [npGet, List.getElem?_map, id]
    cases l[i]? <;> rfl
  simpa using this

theorem anchorPoints (h : OtherUnits us sp sp') {c : Ctx} (hm : Managed us sp sp' c) (dup : Option DupMgr)
    (unique : Bool) (t : String) (n numAnchor : Nat) (o : DesignOracle)
    {score score' : Mat → Py (List ℚ)} (hs : ∀ X, score' (X.map (convRow (colUnits us sp.kinds))) = score X)
    (argsort : List ℚ → List Nat) :
    anchorPoints sp' (some (convCtx (colUnits us sp.kinds) c)) (dup.map (convDup us)) unique t n numAnchor o
        score' argsort
      = (anchorPoints sp (some c) dup unique t n numAnchor o score argsort).map
          (List.map (convRow (colUnits us sp.kinds))) := by
  unfold GPyOpt.anchorPoints
  rw [h.anchorSamples hm]
  cases GPyOpt.anchorSamples sp (some c) unique t n o with
  | error e => rfl
  | ok X =>
    have hf : mapE (GPyOpt.isDup (dup.map (convDup us)) sp') (X.map (convRow (colUnits us sp.kinds)))
        = mapE (GPyOpt.isDup dup sp) X := by
      have := mapE_conv (f := GPyOpt.isDup dup sp) (f' := GPyOpt.isDup (dup.map (convDup us)) sp')
        (g := convRow (colUnits us sp.kinds)) (k := id) X fun x _ => by
          rw [h.isDup dup]; cases GPyOpt.isDup dup sp x <;> rfl
      rw [this]
      cases mapE (GPyOpt.isDup dup sp) X <;> simp
    simp only [Except_map_ok, hf]
    cases mapE (GPyOpt.isDup dup sp) X with
    | error e => rfl
    | ok flags =>
      simp only [nonDuplicates_conv, List.map_eq_nil_iff, hs]
      split_ifs
      · rfl
      · cases score (nonDuplicates X flags) with
        | error e => rfl
        | ok s => exact mapE_npGet_map _ _ _

theorem objectiveScores_conv {cu : List (ℚ × ℚ)} {f f' : Vec → Py ℚ} (hf : ∀ x, f' (convRow cu x) = f x)
    (X : Mat) : objectiveScores f' (X.map (convRow cu)) = objectiveScores f X := by
  unfold objectiveScores
  have := mapE_conv (f := f) (f' := f') (g := convRow cu) (k := id) X fun x _ => by
    rw [hf]; cases f x <;> rfl
  rw [this]
  cases mapE f X <;> simp

theorem randomScores_conv (cu : List (ℚ × ℚ)) (X : Mat) :
    randomScores (X.map (convRow cu)) = randomScores X := by
  simp [randomScores]

theorem acqOptimize (h : OtherUnits us sp sp') {c : Ctx} (hm : Managed us sp sp' c) (dup : Option DupMgr)
    (op : AcqOptions) {o o' : AcqOracle} (ho : SameOracle (colUnits us sp.kinds) c o o')
    {f f' : Vec → Py ℚ} (hf : ∀ x, f' (convRow (colUnits us sp.kinds) x) = f x) :
    acqOptimize sp' (convCtx (colUnits us sp.kinds) c) (dup.map (convDup us)) op o' f'
      = (acqOptimize sp c dup op o f).map (convPt (colUnits us sp.kinds)) := by
  have hA : acqAnchors sp' (convCtx (colUnits us sp.kinds) c) (dup.map (convDup us)) op o' f'
      = (acqAnchors sp c dup op o f).map (List.map (convRow (colUnits us sp.kinds))) := by
    unfold acqAnchors
    rw [ho.design, ho.argsort]
    split_ifs
    · exact h.anchorPoints hm dup _ _ _ _ _ (objectiveScores_conv hf) _
    · exact h.anchorPoints hm dup _ _ _ _ _ ho.thompson _
    · rfl
  unfold GPyOpt.acqOptimize
  rw [hA]
  cases chooseOptimizer op.optimizerName with
  | error e => rfl
  | ok _ =>
    simp only
    cases acqAnchors sp c dup op o f with
    | error e => rfl
    | ok A =>
      simp only [Except_map_ok, h.optimizedPoints (hm.covers h) dup ho.opt hf]
      cases GPyOpt.optimizedPoints sp (some c) dup o.opt f A with
      | error e => rfl
      | ok pts =>
        have hv : (pts.map (convPt (colUnits us sp.kinds))).map Prod.snd = pts.map Prod.snd := by
          rw [List.map_map]; rfl
        simp only [Except_map_ok, hv]
        cases argmin (pts.map Prod.snd) with
        | error e => rfl
        | ok i =>
          simp only [npGet, List.getElem?_map]
          cases pts[i]? <;> rfl

/-! ### Batches -/

theorem batchLoop (h : OtherUnits us sp sp') {oa oa' : Nat → Vec → Py Vec}
    (batchSize : Nat) (A : Mat)
    (hoa : ∀ k, ∀ a ∈ A, oa' k (convRow (colUnits us sp.kinds) a)
      = (oa k a).map (convRow (colUnits us sp.kinds))) : ∀ (k : Nat) (batch : Mat) (seen : List Vec),
    batchLoop sp' oa' batchSize k (A.map (convRow (colUnits us sp.kinds)))
        (batch.map (convRow (colUnits us sp.kinds))) (seen.map (convRow us))
      = (batchLoop sp oa batchSize k A batch seen).map (List.map (convRow (colUnits us sp.kinds))) := by
  induction A with
  | nil => intro k batch seen; rfl
  | cons a A ih =>
    intro k batch seen
    have ih := ih fun k b hb => hoa k b (by simp [hb])
    simp only [List.map_cons, GPyOpt.batchLoop, hoa k a (by simp)]
    cases oa k a with
    | error e => rfl
    | ok x =>
      simp only [Except_map_ok, h.zipTuple]
      cases GPyOpt.zipTuple sp x with
      | error e => rfl
      | ok zx =>
        simp only [Except_map_ok, h.mem_conv]
        have hb : ∀ y, batch.map (convRow (colUnits us sp.kinds)) ++ [convRow (colUnits us sp.kinds) y]
            = (batch ++ [y]).map (convRow (colUnits us sp.kinds)) := fun y => by simp
        have hs : ∀ z, convRow us z :: seen.map (convRow us) = (z :: seen).map (convRow us) := fun z => rfl
        simp only [hb, hs, List.length_map, ih]
        by_cases g1 : zx ∉ seen
        · simp only [if_pos g1]
          by_cases g2 : (batch ++ [x]).length = batchSize
          · simp only [if_pos g2, Except_map_ok]
          · simp only [if_neg g2]
        · simp only [if_neg g1]
          cases GPyOpt.zipTuple sp a with
          | error e => rfl
          | ok za =>
            simp only [Except_map_ok, h.mem_conv, hs, ih]
            by_cases g3 : za ∉ seen
            · simp only [if_pos g3]
              by_cases g2 : (batch ++ [a]).length = batchSize
              · simp only [if_pos g2, Except_map_ok]
              · simp only [if_neg g2]
            · simp only [if_neg g3]
              by_cases g2 : batch.length = batchSize
              · simp only [if_pos g2, Except_map_ok]
              · simp only [if_neg g2]

theorem npAny_pos {us : List (ℚ × ℚ)} (hp : ∀ u ∈ us, (0 : ℚ) < u.1) (hz : ∀ u ∈ us, u.2 = 0) (m : Mat) :
    npAny (m.map (convRow us)) = npAny m := by
  have key : ∀ (us : List (ℚ × ℚ)), (∀ u ∈ us, (0 : ℚ) < u.1 ∧ u.2 = 0) → ∀ r : Vec,
      (convRow us r).any (fun v => decide (v ≠ 0)) = r.any (fun v => decide (v ≠ 0)) := by
    intro us
    induction us with
    | nil => simp
    | cons u us ih =>
      intro hu r
      cases r with
      | nil => rfl
      | cons x r =>
        have h1 := hu u (by simp)
        have : (conv u x ≠ 0) ↔ x ≠ 0 := by
          simp [conv, h1.2, h1.1.ne']
        simp only [convRow_cons, List.any_cons, ih (fun v hv => hu v (by simp [hv])), this]
  unfold npAny
  rw [List.any_map]
  congr 1
  funext r
  exact key us (fun u hu => ⟨hp u hu, hz u hu⟩) r

theorem vstack_conv (cu : List (ℚ × ℚ)) (m : Mat) :
    vstack (m.map (convRow cu)) = (vstack m).map (List.map (convRow cu)) := by
  unfold vstack
  simp only [List.map_eq_nil_iff]
  split_ifs <;> rfl

theorem colUnits_zero (hz : ∀ u ∈ us, u.2 = 0) (ks : List Kind) : ∀ u ∈ colUnits us ks, u.2 = 0 := by
  intro u hu
  unfold colUnits at hu
  obtain ⟨l, hl, hul⟩ := List.mem_flatten.1 hu
  rw [List.mem_iff_getElem] at hl
  obtain ⟨i, hi, rfl⟩ := hl
  rw [List.getElem_zipWith] at hul
  obtain ⟨-, rfl⟩ := List.mem_replicate.1 hul
  exact hz _ (List.getElem_mem _)

theorem dedupBatch (h : OtherUnits us sp sp') (dm : DupMgr) {anchors anchors' : Py Mat}
    (ha : anchors' = anchors.map (List.map (convRow (colUnits us sp.kinds))))
    {x0 x0' : Py (Option Vec)} (hx : x0' = x0.map (Option.map (convRow (colUnits us sp.kinds))))
    (hz : x0 = .ok none ∨ ∀ u ∈ us, u.2 = 0)
    {oa oa' : Nat → Vec → Py Vec}
    (hoa : ∀ A, anchors = .ok A → ∀ k, ∀ a ∈ A, oa' k (convRow (colUnits us sp.kinds) a)
      = (oa k a).map (convRow (colUnits us sp.kinds)))
    (batchSize : Nat) :
    dedupBatch sp' (convDup us dm) anchors' x0' oa' batchSize
      = (dedupBatch sp dm anchors x0 oa batchSize).map (List.map (convRow (colUnits us sp.kinds))) := by
  subst ha hx
  have hl : ∀ (A batch : Mat) (seen : List Vec), anchors = .ok A →
      (match GPyOpt.batchLoop sp' oa' batchSize 0 (A.map (convRow (colUnits us sp.kinds)))
          (batch.map (convRow (colUnits us sp.kinds))) (seen.map (convRow us)) with
        | .error e => (.error e : Py Mat)
        | .ok b => vstack b)
      = (match GPyOpt.batchLoop sp oa batchSize 0 A batch seen with
        | .error e => (.error e : Py Mat)
        | .ok b => vstack b).map (List.map (convRow (colUnits us sp.kinds))) := by
    intro A batch seen hA
    rw [h.batchLoop _ _ (hoa A hA)]
    cases GPyOpt.batchLoop sp oa batchSize 0 A batch seen with
    | error e => rfl
    | ok b => simp only [Except_map_ok, vstack_conv]
  unfold GPyOpt.dedupBatch
  cases anchors with
  | error e => rfl
  | ok A =>
    simp only [Except_map_ok]
    cases x0 with
    | error e => rfl
    | ok x0 =>
      cases x0 with
      | none =>
        simp only [Except_map_ok, Option.map_none]
        exact hl A [] dm.points rfl
      | some x =>
        have hz' : ∀ u ∈ us, u.2 = 0 := by
          rcases hz with hz | hz
          · simp at hz
          · exact hz
        have hany : npAny [convRow (colUnits us sp.kinds) x] = npAny [x] := by
          have := npAny_pos (us := colUnits us sp.kinds) h.rescaled.colPos (colUnits_zero hz' _) [x]
          simpa using this
        simp only [Except_map_ok, Option.map_some, hany]
        cases npAny [x] with
        | false => exact hl A [] dm.points rfl
        | true =>
          simp only [if_true, h.zipTuple]
          cases GPyOpt.zipTuple sp x with
          | error e => rfl
          | ok zx => exact hl A [x] (zx :: dm.points) rfl

theorem roundOptimum_length (h : OtherUnits us sp sp') {x : Vec} (hx : x.length = sp.modelDim) {m : Mat}
    (hm : sp.roundOptimum2d [x] = .ok m) : ∀ r ∈ m, r.length = sp.modelDim := by
  obtain ⟨p, h1, h2, h3⟩ := h.rescaled.round x (colUnits us sp.kinds) 0 rfl (by
    rw [hx]; exact (Nat.zero_add _).le)
  simp only [Space.roundOptimum2d, Space.roundOptimum, h1] at hm
  cases p with
  | error e => simp at hm
  | ok rs =>
    simp only [Except_map_ok, Rescaled.concatPieces_flat] at hm
    split_ifs at hm
    cases hm
    intro r hr
    rw [List.mem_singleton] at hr
    subst hr
    have h4 := h3 rs rfl
    rw [modelDim_eq]
    change List.Forall₂ _ sp.kinds rs at h4
    clear h1 h2 h3
    rename_i hne
    clear hne
    generalize sp.kinds = ks at h4
    induction h4 with
    | nil => rfl
    | cons h5 _ ih => rw [List.flatten_cons, List.length_append, h5, ih, List.map_cons, List.sum_cons]

theorem applyOptimizer_length (h : OtherUnits us sp sp') {c : Ctx} {dup : Option DupMgr}
    {opt : (Vec → Py ℚ) → Vec → Py Vec} {f : Vec → Py ℚ} {x0 : Vec} (hx : x0.length = sp.modelDim)
    {p : Vec × ℚ} (hp : GPyOpt.applyOptimizer sp (some c) dup opt f x0 = .ok p) :
    p.1.length = sp.modelDim := by
  unfold GPyOpt.applyOptimizer at hp
  split at hp
  · cases hp
  split at hp
  · cases hp
  · cases hp
  split at hp
  · cases hp
  split at hp
  · cases hp
  rename_i yc hy
  split at hp
  · cases hp
  · rename_i r hr
    have hl := h.roundOptimum_length (expandVector_length hy) hr r (by simp)
    split at hp
    · cases hp
    · split at hp
      · cases hp
      · cases hp; exact hx
    · split at hp
      · cases hp
      · cases hp; exact hl
  · cases hp

theorem thompsonOptimize (h : OtherUnits us sp sp') {c : Ctx} (hm : Managed us sp sp' c)
    (dup : Option DupMgr) {o o' : AcqOracle} (ho : SameOracle (colUnits us sp.kinds) c o o')
    {f f' : Vec → Py ℚ} (hf : ∀ x, f' (convRow (colUnits us sp.kinds) x) = f x) (k : Nat) {a : Vec}
    (ha : a.length = sp.modelDim) :
    thompsonOptimize sp' (convCtx (colUnits us sp.kinds) c) (dup.map (convDup us)) o' f' k
        (convRow (colUnits us sp.kinds) a)
      = (thompsonOptimize sp c dup o f k a).map (convRow (colUnits us sp.kinds)) := by
  unfold GPyOpt.thompsonOptimize
  rw [h.applyOptimizer (hm.covers h) dup (ho.opt k) hf]
  cases hp : GPyOpt.applyOptimizer sp (some c) dup (o.opt k) f a with
  | error e => rfl
  | ok p =>
    have hl := h.applyOptimizer_length ha hp
    simp only [Except_map_ok, convPt, h.roundOptimum2d hl]
    cases sp.roundOptimum2d [p.1] with
    | error e => rfl
    | ok m =>
      match m with
      | [] => rfl
      | [r] => rfl
      | _ :: _ :: _ => rfl

theorem anchorPoints_length (h : OtherUnits us sp sp') {c : Ctx} (hm : Managed us sp sp' c)
    {dup : Option DupMgr} {unique : Bool} {t : String} {n numAnchor : Nat} {o : DesignOracle}
    {score : Mat → Py (List ℚ)} {argsort : List ℚ → List Nat} {A : Mat}
    (hA : GPyOpt.anchorPoints sp (some c) dup unique t n numAnchor o score argsort = .ok A) :
    ∀ a ∈ A, a.length = sp.modelDim := by
  obtain ⟨context, hc, hnd⟩ := hm.ctx
  obtain ⟨spF, spF', a1, -⟩ := h.free hc hm.ctx' rfl
  unfold GPyOpt.anchorPoints at hA
  split at hA
  · cases hA
  rename_i X hX
  have hX' : ∀ r ∈ X, r.length = sp.modelDim := by
    unfold GPyOpt.anchorSamples at hX
    rw [a1] at hX
    simp only at hX
    split at hX
    · cases hX
    split at hX
    · cases hX
    rename_i Z hZ
    rw [mapE_eq_ok] at hX
    intro r hr
    obtain ⟨z, -, hz⟩ := forall₂_mem_right hX hr
    exact expandVector_length hz
  split at hA
  · cases hA
  rename_i flags hfl
  simp only at hA
  split_ifs at hA
  split at hA
  · cases hA
  rw [mapE_eq_ok] at hA
  intro a ha
  obtain ⟨i, -, hi⟩ := forall₂_mem_right hA ha
  have := List.mem_of_getElem? (npGet_ok.1 hi)
  unfold nonDuplicates at this
  obtain ⟨q, hq, hqa⟩ := List.mem_filterMap.1 this
  have hmem := (List.of_mem_zip (a := q.1) (b := q.2) hq).1
  split_ifs at hqa
  cases hqa
  exact hX' _ hmem

theorem thompsonBatch (h : OtherUnits us sp sp') {c : Ctx} (hm : Managed us sp sp' c)
    (dup : Option DupMgr) (numSamples batchSize : Nat) {o o' : BatchOracle}
    (ho : SameOracle (colUnits us sp.kinds) c o.batch o'.batch)
    {f f' : Vec → Py ℚ} (hf : ∀ x, f' (convRow (colUnits us sp.kinds) x) = f x) :
    thompsonBatch sp' (convCtx (colUnits us sp.kinds) c) (dup.map (convDup us)) numSamples batchSize o' f'
      = (thompsonBatch sp c dup numSamples batchSize o f).map (List.map (convRow (colUnits us sp.kinds))) := by
  have hA : thompsonBatchAnchors sp' (convCtx (colUnits us sp.kinds) c) (dup.map (convDup us)) numSamples
        batchSize o'.batch
      = (thompsonBatchAnchors sp c dup numSamples batchSize o.batch).map
          (List.map (convRow (colUnits us sp.kinds))) := by
    unfold thompsonBatchAnchors
    rw [ho.design, ho.argsort, Option.isSome_map]
    exact h.anchorPoints hm dup _ _ _ _ _ ho.thompson _
  cases dup with
  | some dm =>
    exact h.dedupBatch dm hA rfl (.inl rfl) (fun A hA k a ha =>
      h.thompsonOptimize hm (some dm) ho hf k (h.anchorPoints_length hm hA a ha)) batchSize
  | none =>
    simp only [Option.map_none] at hA ⊢
    unfold GPyOpt.thompsonBatch
    simp only [hA]
    cases hA' : thompsonBatchAnchors sp c none numSamples batchSize o.batch with
    | error e => rfl
    | ok A =>
      simp only [Except_map_ok]
      rw [List.zipIdx_map, ← List.map_take]
      rw [mapE_conv (f := fun ka : Vec × Nat => GPyOpt.thompsonOptimize sp c none o.batch f ka.2 ka.1)
        (k := convRow (colUnits us sp.kinds)) (A.zipIdx.take batchSize) fun a ha => by
          have : a.1 ∈ A := by
            have := List.mem_of_mem_take ha
            obtain ⟨_, _, h3⟩ := List.mem_zipIdx this
            rw [h3]; exact List.getElem_mem _
          exact h.thompsonOptimize hm none ho hf a.2 (h.anchorPoints_length hm hA' a.1 this)]
      cases mapE (fun ka : Vec × Nat => GPyOpt.thompsonOptimize sp c none o.batch f ka.2 ka.1)
          (A.zipIdx.take batchSize) with
      | error e => rfl
      | ok b => simp only [Except_map_ok, vstack_conv]

theorem randomBatch (h : OtherUnits us sp sp') {c : Ctx} (hm : Managed us sp sp' c)
    (dup : Option DupMgr) (hz : dup.isSome → ∀ u ∈ us, u.2 = 0) (op : AcqOptions)
    (numSamples batchSize : Nat) {o o' : BatchOracle}
    (ho : SameOracle (colUnits us sp.kinds) c o.acq o'.acq)
    (hb : SameOracle (colUnits us sp.kinds) c o.batch o'.batch)
    {f f' : Vec → Py ℚ} (hf : ∀ x, f' (convRow (colUnits us sp.kinds) x) = f x) :
    randomBatch sp' (convCtx (colUnits us sp.kinds) c) (dup.map (convDup us)) op numSamples batchSize o' f'
      = (randomBatch sp c dup op numSamples batchSize o f).map (List.map (convRow (colUnits us sp.kinds))) := by
  have hA : randomBatchAnchors sp' (convCtx (colUnits us sp.kinds) c) (dup.map (convDup us)) numSamples
        batchSize o'.batch
      = (randomBatchAnchors sp c dup numSamples batchSize o.batch).map
          (List.map (convRow (colUnits us sp.kinds))) := by
    unfold randomBatchAnchors
    rw [hb.design, hb.argsort, Option.isSome_map]
    exact h.anchorPoints hm dup _ _ _ _ _ (randomScores_conv _) _
  have hO := h.acqOptimize hm dup op ho hf
  cases dup with
  | some dm =>
    refine h.dedupBatch dm hA ?_ (.inr (hz rfl)) (fun A hA k a ha => rfl) batchSize
    rw [hO]
    cases GPyOpt.acqOptimize sp c (some dm) op o.acq f <;> rfl
  | none =>
    simp only [Option.map_none] at hA hO ⊢
    unfold GPyOpt.randomBatch
    simp only [hA, hO]
    cases GPyOpt.acqOptimize sp c none op o.acq f with
    | error e => rfl
    | ok p =>
      simp only [Except_map_ok, convPt]
      cases randomBatchAnchors sp c none numSamples batchSize o.batch with
      | error e => rfl
      | ok A => simp [List.map_take]

theorem lpLoop_conv (cu : List (ℚ × ℚ)) {opt opt' : Nat → LPState → Py Vec}
    (ho : ∀ k s, opt' k (convLP cu s) = (opt k s).map (convRow cu)) (cst : ℚ × ℚ) :
    ∀ (todo k : Nat) (batch : Mat) (s : LPState) (tr : List LPState),
      lpLoop opt' cst todo k (batch.map (convRow cu)) (convLP cu s) (tr.map (convLP cu))
        = (lpLoop opt cst todo k batch s tr).map
            fun r => (r.1.map (convRow cu), convLP cu r.2.1, r.2.2.map (convLP cu)) := by
  intro todo
  induction todo with
  | zero => intros; rfl
  | succ todo ih =>
    intro k batch s tr
    have hu : (convLP cu s).update (some (batch.map (convRow cu))) (some cst)
        = convLP cu (s.update (some batch) (some cst)) := rfl
    simp only [lpLoop, hu, ho]
    cases opt k (s.update (some batch) (some cst)) with
    | error e => rfl
    | ok x =>
      simp only [Except_map_ok]
      rw [← ih]
      simp

theorem lpBatch_conv (cu : List (ℚ × ℚ)) {opt opt' : Nat → LPState → Py Vec}
    (ho : ∀ k s, opt' k (convLP cu s) = (opt k s).map (convRow cu)) (consts : Py (ℚ × ℚ)) (n : Nat)
    (s : LPState) :
    (lpBatch opt' consts n (convLP cu s)).map Prod.fst
      = ((lpBatch opt consts n s).map Prod.fst).map (List.map (convRow cu)) := by
  have hu : (convLP cu s).update none none = convLP cu (s.update none none) := rfl
  unfold lpBatch
  simp only [hu, ho]
  cases opt 0 (s.update none none) with
  | error e => rfl
  | ok x =>
    simp only [Except_map_ok]
    split_ifs
    · cases consts with
      | error e => rfl
      | ok cst =>
        have := lpLoop_conv cu ho cst (n - 1) 1 [x] (s.update none none) [s.update none none]
        simp only [List.map_cons, List.map_nil] at this
        simp only [this]
        cases lpLoop opt cst (n - 1) 1 [x] (s.update none none) [s.update none none] <;> rfl
    · rfl

theorem computeBatch (h : OtherUnits us sp sp') {c : Ctx} (hm : Managed us sp sp' c)
    {env env' : EvalEnv} (he : SameEnv (colUnits us sp.kinds) c env env') (ev : Evaluator)
    (dup : Option DupMgr) (hz : (∀ n, ev ≠ .random n) ∨ (dup.isSome → ∀ u ∈ us, u.2 = 0)) :
    computeBatch ev env' sp' (convCtx (colUnits us sp.kinds) c) (dup.map (convDup us))
      = (computeBatch ev env sp c dup).map (List.map (convRow (colUnits us sp.kinds))) := by
  cases ev with
  | sequential =>
    simp only [GPyOpt.computeBatch, sequentialBatch, he.op, h.acqOptimize hm dup env.op he.acq he.f]
    cases GPyOpt.acqOptimize sp c dup env.op env.oracle.acq env.f <;> rfl
  | random n =>
    simp only [GPyOpt.computeBatch, he.op, he.samplesRandom]
    refine h.randomBatch hm dup ?_ _ _ _ he.acq he.batch he.f
    rcases hz with hz | hz
    · exact absurd rfl (hz n)
    · exact hz
  | thompson n =>
    simp only [GPyOpt.computeBatch, he.samplesThompson]
    exact h.thompsonBatch hm dup _ _ he.batch he.f
  | localPenalization n =>
    simp only [GPyOpt.computeBatch, he.op, he.lpConsts, he.lpState]
    refine lpBatch_conv _ (fun k s => ?_) _ _ _
    have := h.acqOptimize hm none env.op (he.acqLP k) (he.fLP s)
    simp only [Option.map_none] at this
    rw [this]
    cases GPyOpt.acqOptimize sp c none env.op (env.acqLP k) (env.fLP s) <;> rfl

end Spec.OtherUnits

end GPyOpt
