import Verif.Props.Batch
import Verif.Lemmas.Context
import Mathlib.Data.List.Perm.Basic

/-!
# C117: suggestions depend on known locations as a set, and on the context as a dictionary

The order and multiplicity of evaluated, pending and ignored locations, and the order in which the variables of the
context are listed, have no effect on a suggestion.
-/

namespace GPyOpt.Props

/-! ## Duplicate managers with the same members -/

/-- The duplicate managers refuse the same points. -/
def SameDup (d d' : Option DupMgr) : Prop :=
  match d, d' with
  | none, none => True
  | some a, some b => ∀ x, x ∈ a.points ↔ x ∈ b.points
  | _, _ => False

theorem SameDup.isDup {d d' : Option DupMgr} (h : SameDup d d') (sp : Space) : isDup d sp = isDup d' sp := by
  funext x
  cases d with
  | none => cases d' with
    | none => rfl
    | some b => exact h.elim
  | some a => cases d' with
    | none => exact h.elim
    | some b =>
      show (sp.zipInputs [x]).map _ = (sp.zipInputs [x]).map _
      congr 1
      funext m
      simp only [DupMgr.isZippedDup]
      exact decide_eq_decide.2 (h m.flatten)

theorem SameDup.isSome {d d' : Option DupMgr} (h : SameDup d d') : d.isSome = d'.isSome := by
  cases d <;> cases d' <;> first | rfl | exact h.elim

theorem npAny_congr {m m' : Mat} (h : ∀ r, r ∈ m ↔ r ∈ m') : npAny m = npAny m' := by
  rw [Bool.eq_iff_iff]
  simp only [npAny, List.any_eq_true]
  constructor <;> rintro ⟨r, hr, h2⟩
  · exact ⟨r, (h r).1 hr, h2⟩
  · exact ⟨r, (h r).2 hr, h2⟩

/-! ## Context managers with the same effect -/

/-- The context managers leave the same columns free and insert the same values. -/
structure SameCtx (sp : Space) (c c' : Ctx) : Prop where
  freeObj : c.nocontextIndexObj = c'.nocontextIndexObj
  free : c.noncontextIndex = c'.noncontextIndex
  expand : ∀ x, c.expandVector sp x = c'.expandVector sp x

theorem SameCtx.addContext {sp : Space} {c c' : Ctx} (h : SameCtx sp c c') :
    addContext (some c) sp = addContext (some c') sp := by
  funext x; exact h.expand x

theorem SameCtx.fNoContext {sp : Space} {c c' : Ctx} (h : SameCtx sp c c') (f : Vec → Py ℚ) :
    fNoContext (some c) sp f = fNoContext (some c') sp f := by
  funext x; simp only [GPyOpt.fNoContext, h.expand]

theorem same_anchorSamples {sp : Space} {c c' : Ctx} (h : SameCtx sp c c') (u : Bool) (t : String) (n : Nat)
    (o : DesignOracle) : anchorSamples sp (some c) u t n o = anchorSamples sp (some c') u t n o := by
  unfold anchorSamples anchorSpace
  simp only [h.freeObj]
  by_cases hb : sp.hasBandit
  · simp only [hb, if_true]
  · simp only [hb]
    cases mapE (npGet sp.configExpanded) c'.nocontextIndexObj with
    | error e => rfl
    | ok ds =>
      simp only
      cases designSpace ds sp.constraints with
      | error e => rfl
      | ok sp' => simp [h.addContext]

section
variable {sp : Space} {c c' : Ctx} {d d' : Option DupMgr}

theorem same_anchorPoints (hc : SameCtx sp c c') (hd : SameDup d d') (u : Bool) (t : String) (n k : Nat)
    (o : DesignOracle) (score : Mat → Py (List ℚ)) (argsort : List ℚ → List Nat) :
    anchorPoints sp (some c) d u t n k o score argsort = anchorPoints sp (some c') d' u t n k o score argsort := by
  unfold anchorPoints
  rw [same_anchorSamples hc, hd.isDup]

theorem same_applyOptimizer (hc : SameCtx sp c c') (hd : SameDup d d') (opt : (Vec → Py ℚ) → Vec → Py Vec)
    (f : Vec → Py ℚ) (x0 : Vec) :
    applyOptimizer sp (some c) d opt f x0 = applyOptimizer sp (some c') d' opt f x0 := by
  unfold applyOptimizer
  rw [hd.isDup, hc.fNoContext, hc.addContext]
  simp only [x0NoContext, hc.free]

theorem same_acqOptimize (hc : SameCtx sp c c') (hd : SameDup d d') (op : AcqOptions) (o : AcqOracle)
    (f : Vec → Py ℚ) : acqOptimize sp c d op o f = acqOptimize sp c' d' op o f := by
  unfold acqOptimize acqAnchors optimizedPoints
  simp only [same_anchorPoints hc hd, same_applyOptimizer hc hd]

theorem same_batchLoop (sp : Space) (oa : Nat → Vec → Py Vec) (n : Nat) : ∀ (as : Mat) (k : Nat) (b : Mat)
    (seen seen' : List Vec), (∀ x, x ∈ seen ↔ x ∈ seen') →
    batchLoop sp oa n k as b seen = batchLoop sp oa n k as b seen' := by
  intro as
  induction as with
  | nil => intros; rfl
  | cons a as ih =>
    intro k b seen seen' h
    have hcons : ∀ z x, x ∈ z :: seen ↔ x ∈ z :: seen' := fun z x => by simp [h x]
    simp only [batchLoop]
    cases oa k a with
    | error e => rfl
    | ok x =>
      simp only
      cases zipTuple sp x with
      | error e => rfl
      | ok zx =>
        simp only [h zx]
        split_ifs with h1 h2
        all_goals first
          | rfl
          | exact ih _ _ _ _ (hcons zx)
          | cases zipTuple sp a with
            | error e => rfl
            | ok za => simp only [h za, ih _ _ _ _ (hcons za), ih _ _ _ _ h]

theorem same_dedupBatch {a b : DupMgr} (h : ∀ x, x ∈ a.points ↔ x ∈ b.points) (anchors : Py Mat)
    (x0 : Py (Option Vec)) (oa : Nat → Vec → Py Vec) (n : Nat) :
    dedupBatch sp a anchors x0 oa n = dedupBatch sp b anchors x0 oa n := by
  unfold dedupBatch
  cases anchors with
  | error e => rfl
  | ok as => cases x0 with
    | error e => rfl
    | ok x0 => cases x0 with
      | none => simp only [same_batchLoop sp oa n as 0 [] _ _ h]
      | some x =>
        simp only
        split_ifs
        · cases zipTuple sp x with
          | error e => rfl
          | ok zx =>
            have hcons : ∀ y, y ∈ zx :: a.points ↔ y ∈ zx :: b.points := fun y => by simp [h y]
            simp only [same_batchLoop sp oa n as 0 [x] _ _ hcons]
        · simp only [same_batchLoop sp oa n as 0 [] _ _ h]

/-- Batches of every evaluator are the same. -/
theorem same_computeBatch (hc : SameCtx sp c c') (hd : SameDup d d') (ev : Evaluator) (env : EvalEnv) :
    computeBatch ev env sp c d = computeBatch ev env sp c' d' := by
  have hn : SameDup none none := trivial
  cases ev with
  | sequential => simp only [computeBatch, sequentialBatch, same_acqOptimize hc hd]
  | localPenalization n => simp only [computeBatch, same_acqOptimize hc hn]
  | random n =>
    simp only [computeBatch]
    cases d with
    | none => cases d' with
      | none => simp only [randomBatch, randomBatchAnchors, same_acqOptimize hc hn, same_anchorPoints hc hn]
      | some b => exact hd.elim
    | some a => cases d' with
      | none => exact hd.elim
      | some b =>
        simp only [randomBatch, randomBatchAnchors, same_acqOptimize hc hd, same_anchorPoints hc hd,
          Option.isSome_some]
        exact same_dedupBatch hd _ _ _ _
  | thompson n =>
    simp only [computeBatch]
    cases d with
    | none => cases d' with
      | none =>
        simp only [thompsonBatch, thompsonBatchAnchors, thompsonOptimize, same_applyOptimizer hc hn,
          same_anchorPoints hc hn]
      | some b => exact hd.elim
    | some a => cases d' with
      | none => exact hd.elim
      | some b =>
        have he : thompsonOptimize sp c (some a) env.oracle.batch env.f =
            thompsonOptimize sp c' (some b) env.oracle.batch env.f := by
          funext k x; simp only [thompsonOptimize, same_applyOptimizer hc hd]
        simp only [thompsonBatch, thompsonBatchAnchors, same_anchorPoints hc hd, Option.isSome_some, he]
        exact same_dedupBatch hd _ _ _ _

end

theorem sameCtx_refl (sp : Space) (c : Ctx) : SameCtx sp c c := ⟨rfl, rfl, fun _ => rfl⟩

/-! ## Known locations -/

/-- The known locations: evaluated ones, and pending and ignored ones of matrices that are not entirely zero (an entirely
zero matrix is dropped, C21). -/
def KnownPoint (X : Mat) (pending ignored : Option Mat) (x : Vec) : Prop :=
  x ∈ X ∨ ∃ m, (pending = some m ∨ ignored = some m) ∧ (∃ r ∈ m, ∃ v ∈ r, v ≠ 0) ∧ x ∈ m

theorem npAny_iff (m : Mat) : npAny m = true ↔ ∃ r ∈ m, ∃ v ∈ r, v ≠ 0 := by
  simp [npAny]

theorem mem_dupMgr_iff (X : Mat) (pending ignored : Option Mat) (x : Vec) :
    x ∈ (dupMgr X pending ignored).points ↔ KnownPoint X pending ignored x := by
  have hopt : ∀ o : Option Mat, (optAny o = true ∧ x ∈ o.getD []) ↔
      ∃ m, o = some m ∧ (∃ r ∈ m, ∃ v ∈ r, v ≠ 0) ∧ x ∈ m := by
    intro o
    cases o with
    | none => simp [optAny]
    | some m => simp [optAny, npAny_iff]
  have h1 : x ∈ (dupMgr X pending ignored).points ↔
      x ∈ X ∨ (optAny pending = true ∧ x ∈ pending.getD []) ∨ (optAny ignored = true ∧ x ∈ ignored.getD []) := by
    simp only [dupMgr]
    by_cases hp : optAny pending <;> by_cases hi : optAny ignored <;> simp [hp, hi]
  rw [h1, hopt, hopt, KnownPoint]
  constructor
  · rintro (h | ⟨m, rfl, h⟩ | ⟨m, rfl, h⟩)
    · exact .inl h
    · exact .inr ⟨m, .inl rfl, h⟩
    · exact .inr ⟨m, .inr rfl, h⟩
  · rintro (h | ⟨m, rfl | rfl, h⟩)
    · exact .inl h
    · exact .inr (.inl ⟨m, rfl, h⟩)
    · exact .inr (.inr ⟨m, rfl, h⟩)

/-- C117. With the same acquisition function, a suggestion depends on evaluated, pending and ignored locations only
through the set of known locations: not on their order, on repetitions, or on which of the three a location is in. -/
theorem C117_known_points (ev : Evaluator) (env : EvalEnv) (sp : Space) (context : Option Context) (deDup : Bool)
    {X X' : Mat} {p p' i i' : Option Mat} (h : ∀ x, KnownPoint X p i x ↔ KnownPoint X' p' i' x) :
    computeNext ev env sp context deDup X p i = computeNext ev env sp context deDup X' p' i' := by
  unfold computeNext
  cases contextManager sp context with
  | error e => rfl
  | ok c =>
    have hd : SameDup (if deDup then some (dupMgr X p i) else none) (if deDup then some (dupMgr X' p' i') else none) := by
      cases deDup with
      | false => trivial
      | true => exact fun x => by simp only [mem_dupMgr_iff]; exact h x
    simp only [same_computeBatch (sameCtx_refl sp c) hd]

/-- C117. The order and the repetitions of evaluated, pending and ignored locations do not matter. -/
theorem C117_order_of_points (ev : Evaluator) (env : EvalEnv) (sp : Space) (context : Option Context) (deDup : Bool)
    {X X' p p' i i' : Mat} (hX : ∀ r, r ∈ X ↔ r ∈ X') (hp : ∀ r, r ∈ p ↔ r ∈ p') (hi : ∀ r, r ∈ i ↔ r ∈ i') :
    computeNext ev env sp context deDup X (some p) (some i) =
      computeNext ev env sp context deDup X' (some p') (some i') := by
  apply C117_known_points
  intro x
  simp only [KnownPoint, hX x]
  refine or_congr Iff.rfl ?_
  constructor <;> rintro ⟨m, hm | hm, ⟨r, hr, hv⟩, hx⟩ <;> cases hm
  · exact ⟨p', .inl rfl, ⟨r, (hp r).1 hr, hv⟩, (hp x).1 hx⟩
  · exact ⟨i', .inr rfl, ⟨r, (hi r).1 hr, hv⟩, (hi x).1 hx⟩
  · exact ⟨p, .inl rfl, ⟨r, (hp r).2 hr, hv⟩, (hp x).2 hx⟩
  · exact ⟨i, .inr rfl, ⟨r, (hi r).2 hr, hv⟩, (hi x).2 hx⟩

/-! ## Order of the context -/

/-- The variable and the encoded value of an entry of the context. -/
def CtxEntry (sp : Space) (nv : String × ℚ) (b : EVar × Vec) : Prop :=
  sp.findVariable nv.1 = .ok b.1 ∧ b.1.kind.objectiveToModel nv.2 = .ok b.2

theorem contextLoop_iff (sp : Space) (context : Context) (im io : List Nat) (vals : Vec) :
    contextLoop sp context = .ok (im, io, vals) ↔
      ∃ bl : List (EVar × Vec), List.Forall₂ (CtxEntry sp) context bl ∧ im = bl.flatMap (fun b => b.1.idxModel) ∧
        io = bl.map (fun b => b.1.idxObj) ∧ vals = bl.flatMap (fun b => b.2) := by
  induction context generalizing im io vals with
  | nil =>
    simp only [contextLoop, Except.ok.injEq, Prod.mk.injEq, List.forall₂_nil_left_iff]
    constructor
    · rintro ⟨rfl, rfl, rfl⟩; exact ⟨[], rfl, rfl, rfl, rfl⟩
    · rintro ⟨_, rfl, rfl, rfl, rfl⟩; exact ⟨rfl, rfl, rfl⟩
  | cons nv context ih =>
    obtain ⟨name, x⟩ := nv
    simp only [contextLoop, List.forall₂_cons_left_iff]
    constructor
    · intro h
      cases hf : sp.findVariable name with
      | error e => simp [hf] at h
      | ok v =>
        simp only [hf] at h
        cases he : v.kind.objectiveToModel x with
        | error e => simp [he] at h
        | ok en =>
          simp only [he] at h
          cases hr : contextLoop sp context with
          | error e => simp [hr] at h
          | ok r =>
            obtain ⟨im', io', vals'⟩ := r
            simp only [hr, Except.ok.injEq, Prod.mk.injEq] at h
            obtain ⟨rfl, rfl, rfl⟩ := h
            obtain ⟨bl, h1, rfl, rfl, rfl⟩ := (ih _ _ _).1 hr
            exact ⟨(v, en) :: bl, ⟨_, _, ⟨hf, he⟩, h1, rfl⟩, rfl, rfl, rfl⟩
    · rintro ⟨_, ⟨⟨v, en⟩, bl, ⟨h1, h2⟩, h3, rfl⟩, rfl, rfl, rfl⟩
      have := (ih _ _ _).2 ⟨bl, h3, rfl, rfl, rfl⟩
      simp only at h1 h2
      simp only [h1, h2, this, List.flatMap_cons, List.map_cons]

/-- Writing the same values to the same positions in another order. -/
theorem scatterB_perm {idx idx' : List Nat} {vals vals' row : Vec} (hp : (idx.zip vals).Perm (idx'.zip vals'))
    (hl : vals.length = idx.length) (hl' : vals'.length = idx'.length) (hnd : idx.Nodup)
    (hlt : ∀ i ∈ idx, i < row.length) : scatterB idx vals row = scatterB idx' vals' row := by
  have hidx : idx.Perm idx' := by
    have := hp.map Prod.fst
    rwa [List.map_fst_zip (by omega), List.map_fst_zip (by omega)] at this
  obtain ⟨o, h1, h2, h3, h4⟩ := scatterB_spec hnd hlt hl
  obtain ⟨o', g1, g2, g3, g4⟩ := scatterB_spec (hidx.nodup_iff.1 hnd)
    (fun i hi => hlt i (hidx.mem_iff.2 hi)) hl'
  rw [h1, g1]
  congr 1
  have key : ∀ {idx : List Nat} {vals o : Vec}, idx.map (fun i => o[i]?) = vals.map some → ∀ i v, (i, v) ∈ idx.zip vals →
      o[i]? = some v := by
    intro idx vals o h i v hm
    induction idx generalizing vals with
    | nil => simp at hm
    | cons j idx ih => cases vals with
      | nil => simp at hm
      | cons w vals =>
        simp only [List.map_cons, List.cons.injEq] at h
        simp only [List.zip_cons_cons, List.mem_cons, Prod.mk.injEq] at hm
        rcases hm with ⟨rfl, rfl⟩ | hm
        · exact h.1
        · exact ih h.2 hm
  apply List.ext_getElem?
  intro i
  by_cases hi : i ∈ idx
  · obtain ⟨k, hk, rfl⟩ := List.getElem_of_mem hi
    have hm : (idx[k], vals[k]'(by omega)) ∈ idx.zip vals := by
      rw [List.mem_iff_getElem]
      exact ⟨k, by simp; omega, by simp⟩
    rw [key h3 _ _ hm, key g3 _ _ (hp.mem_iff.1 hm)]
  · rw [h4 i hi, g4 i (fun h => hi (hidx.mem_iff.2 h))]

theorem scatter_length {idx : List Nat} {vals row out : Vec} (h : scatter idx vals row = .ok out) :
    out.length = row.length := by
  induction idx generalizing vals row with
  | nil => simp only [scatter, Except.ok.injEq] at h; rw [h]
  | cons i idx ih => cases vals with
    | nil => simp only [scatter, Except.ok.injEq] at h; rw [h]
    | cons v vals =>
      simp only [scatter] at h
      cases hs : setCol row i v with
      | error e => simp [hs] at h
      | ok row' =>
        simp only [hs] at h
        rw [ih h]
        unfold setCol at hs
        split_ifs at hs
        cases hs
        simp

theorem scatterB_length {idx : List Nat} {vals row out : Vec} (h : scatterB idx vals row = .ok out) :
    out.length = row.length := by
  unfold scatterB at h
  split_ifs at h with hl
  · exact scatter_length h
  · split at h
    · exact scatter_length h
    · simp at h

/-- A block of the context is as wide as its columns. -/
theorem ctxEntry_width {config : List Desc} {cs : Option (List ConstrDict)} {sp : Space}
    (h : designSpace config cs = .ok sp) (hb : sp.hasBandit = false) {nv : String × ℚ} {b : EVar × Vec}
    (hen : CtxEntry sp nv b) : b.2.length = b.1.idxModel.length := by
  obtain ⟨i, hi⟩ := List.getElem?_of_mem (mem_of_find hen.1).1
  rw [(C07_layout h hb i b.1 hi).2.2, List.length_map, List.length_range]
  exact objectiveToModel_length hen.2

theorem zip_blocks (bl : List (EVar × Vec)) (h : ∀ b ∈ bl, b.2.length = b.1.idxModel.length) :
    (bl.flatMap fun b => b.1.idxModel).zip (bl.flatMap fun b => b.2) = bl.flatMap fun b => b.1.idxModel.zip b.2 := by
  induction bl with
  | nil => rfl
  | cons b bl ih =>
    simp only [List.flatMap_cons]
    rw [List.zip_append (h b (by simp)).symm, ih fun b hb => h b (by simp [hb])]

theorem length_blocks (bl : List (EVar × Vec)) (h : ∀ b ∈ bl, b.2.length = b.1.idxModel.length) :
    (bl.flatMap fun b => b.2).length = (bl.flatMap fun b => b.1.idxModel).length := by
  induction bl with
  | nil => rfl
  | cons b bl ih =>
    simp only [List.flatMap_cons, List.length_append]
    rw [h b (by simp), ih fun b hb => h b (by simp [hb])]

theorem filter_mem_perm {l a b : List Nat} (h : a.Perm b) :
    l.filter (fun i => i ∉ a) = l.filter (fun i => i ∉ b) := by
  congr 1; funext i; simp [h.mem_iff]

/-- The managers of two dictionaries with the same entries have the same effect. -/
theorem sameCtx_perm {config : List Desc} {cs : Option (List ConstrDict)} {sp : Space}
    (h : designSpace config cs = .ok sp) (hb : sp.hasBandit = false) {ctx ctx' : Context} (hp : ctx'.Perm ctx)
    (hnd : (ctx.map Prod.fst).Nodup) {c : Ctx} (hc : contextManager sp (some ctx) = .ok c) :
    ∃ c', contextManager sp (some ctx') = .ok c' ∧ SameCtx sp c c' := by
  obtain ⟨vs, es, hok⟩ := contextManager_ok hc
  obtain ⟨hcnd, hclt, -, -⟩ := hok.columns h hb hnd
  unfold contextManager at hc ⊢
  cases hbd : sp.getBounds with
  | error e => simp [hbd] at hc
  | ok bounds =>
    simp only [hbd] at hc ⊢
    cases hl : contextLoop sp ctx with
    | error e => simp [hl] at hc
    | ok r =>
      obtain ⟨im, io, vals⟩ := r
      simp only [hl] at hc
      cases hm : mapE (npGet bounds) ((List.range sp.modelDim).filter (fun i => i ∉ im)) with
      | error e => simp only [hm] at hc; simp at hc
      | ok ncb =>
        simp only [hm, Except.ok.injEq] at hc
        subst hc
        simp only at hcnd hclt
        obtain ⟨bl, h1, rfl, rfl, rfl⟩ := (contextLoop_iff _ _ _ _ _).1 hl
        obtain ⟨bl', h1', hbl⟩ := List.perm_comp_forall₂ hp h1
        have hw : ∀ b ∈ bl, b.2.length = b.1.idxModel.length := by
          intro b hbm
          obtain ⟨nv, -, hen⟩ := forall₂_mem_right h1 hbm
          exact ctxEntry_width h hb hen
        have hw' : ∀ b ∈ bl', b.2.length = b.1.idxModel.length := fun b hbm => hw b (hbl.mem_iff.1 hbm)
        have hl' := (contextLoop_iff sp ctx' _ _ _).2 ⟨bl', h1', rfl, rfl, rfl⟩
        have him := hbl.flatMap_right fun b : EVar × Vec => b.1.idxModel
        have hio := hbl.map fun b : EVar × Vec => b.1.idxObj
        simp only [hl']
        rw [filter_mem_perm him]
        simp only [hm]
        refine ⟨_, rfl, ⟨(filter_mem_perm hio).symm, rfl, fun x => ?_⟩⟩
        simp only [Ctx.expandVector]
        cases hs : scatterB ((List.range sp.modelDim).filter fun i => i ∉ bl.flatMap fun b => b.1.idxModel) x
            (List.replicate sp.modelDim 0) with
        | error e => rfl
        | ok row =>
          simp only
          apply scatterB_perm
          · rw [zip_blocks bl hw, zip_blocks bl' hw']
            exact (hbl.flatMap_right fun b : EVar × Vec => b.1.idxModel.zip b.2).symm
          · exact length_blocks bl hw
          · exact length_blocks bl' hw'
          · exact hcnd
          · rw [scatterB_length hs, List.length_replicate]; exact hclt

/-- C117. Contexts that list the same variables and values in another order give the same suggestions (a context that is
refused, is refused in every order). -/
theorem C117_order_of_context {config : List Desc} {cs : Option (List ConstrDict)} {sp : Space}
    (h : designSpace config cs = .ok sp) (hb : sp.hasBandit = false) (ev : Evaluator) (env : EvalEnv) (deDup : Bool)
    (X : Mat) (pending ignored : Option Mat) {ctx ctx' : Context} (hp : ctx.Perm ctx')
    (hnd : (ctx.map Prod.fst).Nodup) (m : Mat) :
    computeNext ev env sp (some ctx) deDup X pending ignored = .ok m ↔
      computeNext ev env sp (some ctx') deDup X pending ignored = .ok m := by
  have one : ∀ {ctx ctx' : Context}, ctx'.Perm ctx → (ctx.map Prod.fst).Nodup →
      computeNext ev env sp (some ctx) deDup X pending ignored = .ok m →
      computeNext ev env sp (some ctx') deDup X pending ignored = .ok m := by
    intro ctx ctx' hp hnd hm
    unfold computeNext at hm ⊢
    cases hc : contextManager sp (some ctx) with
    | error e => simp [hc] at hm
    | ok c =>
      obtain ⟨c', hc', hs⟩ := sameCtx_perm h hb hp hnd hc
      have hd : ∀ d : Option DupMgr, SameDup d d := fun d => by cases d <;> simp [SameDup]
      simp only [hc] at hm
      simp only [hc']
      rw [← same_computeBatch hs (hd _)]
      exact hm
  exact ⟨one hp.symm hnd, one hp ((hp.map Prod.fst).nodup_iff.1 hnd)⟩

/-- C117: it does matter in which list a location is, if it is the only one and all its coordinates are zero: 0 is
suggested although it is pending, and not if it is evaluated. -/
theorem C117_zero_point_counterexample :
    ((designSpace exDiscrete none).bind fun sp =>
      computeNext .sequential { exEnv with f := exAbs } sp none true [] (some [[0]]) none) = .ok [[0]] ∧
    ((designSpace exDiscrete none).bind fun sp =>
      computeNext .sequential { exEnv with f := exAbs } sp none true [[0]] none none) = .ok [[-4]] := by
  constructor <;> decide +kernel

/-- A batch of three, with the context in both orders, and with points moved from one list to another. -/
example : ((designSpace exConfig none).bind fun sp =>
      computeNext (.random 3) exEnv sp (some [("var_2", 1), ("x_2", 1/2)]) true [[-1, 1/2, 0, 1]] none
        (some [[-1, 1/2, 3, 1]])) = .ok [[-3/5, 1/2, 0, 1], [-5/7, 1/2, 3, 1], [-2/3, 1/2, 7, 1]] ∧
    ((designSpace exConfig none).bind fun sp =>
      computeNext (.random 3) exEnv sp (some [("x_2", 1/2), ("var_2", 1)]) true [[-1, 1/2, 3, 1], [-1, 1/2, 3, 1]]
        (some [[-1, 1/2, 0, 1], [-1, 1/2, 3, 1]]) none) =
      .ok [[-3/5, 1/2, 0, 1], [-5/7, 1/2, 3, 1], [-2/3, 1/2, 7, 1]] := by
  constructor <;> decide +kernel

example (x : Vec) : KnownPoint [[-1, 1/2, 0, 1]] none (some [[-1, 1/2, 3, 1]]) x ↔
    KnownPoint [[-1, 1/2, 3, 1], [-1, 1/2, 3, 1]] (some [[-1, 1/2, 0, 1], [-1, 1/2, 3, 1]]) none x := by
  rw [← mem_dupMgr_iff, ← mem_dupMgr_iff]
  have h1 : (dupMgr [[-1, 1/2, 0, 1]] none (some [[-1, 1/2, 3, 1]])).points = [[-1, 1/2, 0, 1], [-1, 1/2, 3, 1]] := by
    decide +kernel
  have h2 : (dupMgr [[-1, 1/2, 3, 1], [-1, 1/2, 3, 1]] (some [[-1, 1/2, 0, 1], [-1, 1/2, 3, 1]]) none).points =
      [[-1, 1/2, 3, 1], [-1, 1/2, 3, 1], [-1, 1/2, 0, 1], [-1, 1/2, 3, 1]] := by decide +kernel
  rw [h1, h2]
  simp only [List.mem_cons, List.not_mem_nil, or_false]
  tauto

end GPyOpt.Props
