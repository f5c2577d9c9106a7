import Verif.Lemmas.UnitsDesign

/-! # Lemmas about other units of the variables: designs, contexts, suggestions -/

namespace GPyOpt

open Spec Props

namespace Spec.OtherUnits

variable {us : List (ℚ × ℚ)} {sp sp' : Space}

theorem designMat (h : OtherUnits us sp sp') (d : Draw) {design design' : Nat → Vec}
    (hl : ∀ r, (design r).length = sp.getContinuousBounds.length)
    (hdes : ∀ r, design' r = convRow (contUnits us sp) (design r)) (l : List Nat) :
    mapE (GPyOpt.designRow sp' d design') l
      = (mapE (GPyOpt.designRow sp d design) l).map (List.map (convRow us)) := by
  have := mapE_conv (f := GPyOpt.designRow sp d design) (f' := GPyOpt.designRow sp' d design')
    (g := id) (k := convRow us) l fun r _ => h.designRow d (hl r) (hdes r)
  simpa using this

theorem contUnits_length (h : OtherUnits us sp sp') :
    (contUnits us sp).length = sp.getContinuousBounds.length := by
  rw [← h.contBounds.2, contUnits, List.length_map]

theorem randomNoConstr (h : OtherUnits us sp sp') (d : Draw) (n : Nat) :
    randomNoConstr sp' d n = (randomNoConstr sp d n).map (List.map (convRow us)) := by
  unfold GPyOpt.randomNoConstr
  refine h.designMat d (fun r => by simp [uniformRow]) (fun r => ?_) _
  rw [h.contBounds.1]
  exact convBounds_mapIdx h.contUnits_length _ fun u k b => by simp only [conv]; ring

theorem constrLoop (h : OtherUnits us sp sp') (hc : SameConstraints us sp.constraints sp'.constraints)
    (n : Nat) (ds : Nat → Draw) : ∀ (fuel round : Nat) (m : Mat),
    constrLoop sp' n ds fuel round (m.map (convRow us))
      = (constrLoop sp n ds fuel round m).map (List.map (convRow us)) := by
  intro fuel
  induction fuel with
  | zero =>
    intro round m
    unfold GPyOpt.constrLoop
    simp only [List.length_map]
    split_ifs
    · rfl
    · simp
  | succ fuel ih =>
    intro round m
    unfold GPyOpt.constrLoop
    simp only [List.length_map]
    split_ifs
    · rw [h.randomNoConstr]
      cases GPyOpt.randomNoConstr sp (ds round) n with
      | error e => rfl
      | ok dom =>
        simp only [Except_map_ok]
        rw [h.indicator hc]
        cases sp.indicatorConstraints dom with
        | error e => rfl
        | ok w =>
          simp only
          rw [selectValid_conv, ← List.map_append, ih]
    · simp

theorem initialDesign (h : OtherUnits us sp sp') (hc : SameConstraints us sp.constraints sp'.constraints)
    (name : String) (o : DesignOracle) (n : Nat) :
    initialDesign name sp' o n = (initialDesign name sp o n).map (List.map (convRow us)) := by
  have hcs : sp'.hasConstraints = sp.hasConstraints := hasConstraints hc
  unfold GPyOpt.initialDesign
  split_ifs
  · unfold randomDesign
    rw [hcs]
    split_ifs
    · simpa using h.constrLoop hc n o.draws o.fuel 0 []
    · exact h.randomNoConstr _ _
  · unfold sobolDesign
    rw [hcs]
    split_ifs
    · rfl
    · refine h.designMat _ (fun r => by simp) (fun r => ?_) _
      rw [h.contBounds.1]
      exact convBounds_mapIdx h.contUnits_length _ fun u k b => by simp only [conv]; ring
  · unfold gridDesign
    rw [hcs, h.contDims.1, h.contDims.2]
    split_ifs
    · rfl
    · simp only
      cases iroot (contPos 0 sp.kinds).length n with
      | error e => rfl
      | ok m =>
        refine h.designMat _ (fun r => ?_) (fun r => ?_) _
        · unfold multigridRow
          split
          · rename_i heq; simp [heq]
          · simp
        · rw [h.contBounds.1]
          exact multigridRow_conv h.contUnits_length m r
  · unfold latinDesign
    rw [hcs]
    split_ifs
    · rfl
    · refine h.designMat _ (fun r => by simp) (fun r => ?_) _
      rw [h.contBounds.1]
      exact convBounds_mapIdx h.contUnits_length _ fun u k b => by simp only [conv]; ring
  · rfl

/-! ### Contexts -/

/-- The unit of column or variable `i`. -/
def unitAt (us : List (ℚ × ℚ)) (i : Nat) : ℚ × ℚ := us.getD i (1, 0)

theorem colUnits_slice : ∀ (us : List (ℚ × ℚ)) (ks : List Kind) (i : Nat) (u : ℚ × ℚ) (k : Kind),
    us[i]? = some u → ks[i]? = some k → us.length = ks.length →
    ((List.range (width k)).map (((ks.take i).map width).sum + ·)).map (fun c => (colUnits us ks).getD c (1, 0))
      = List.replicate (width k) u := by
  intro us
  induction us with
  | nil => intro ks i u k h; simp at h
  | cons u0 us ih =>
    intro ks i u k hu hk hl
    cases ks with
    | nil => simp at hk
    | cons k0 ks =>
      rw [Rescaled.colUnits_cons]
      cases i with
      | zero =>
        simp only [List.getElem?_cons_zero, Option.some.injEq] at hu hk
        subst hu hk
        apply List.eq_replicate_iff.2
        refine ⟨by simp, fun b hb => ?_⟩
        obtain ⟨c, hc, rfl⟩ := List.mem_map.1 hb
        obtain ⟨c', hc', rfl⟩ := List.mem_map.1 hc
        have := List.mem_range.1 hc'
        simp only [List.take_zero, List.map_nil, List.sum_nil, Nat.zero_add]
        rw [List.getD_eq_getElem?_getD, List.getElem?_append_left (by simpa using this),
          List.getElem?_replicate, if_pos this]
        rfl
      | succ i =>
        have := ih ks i u k (by simpa using hu) (by simpa using hk) (by simpa using hl)
        rw [← this, List.map_map, List.map_map]
        apply List.map_congr_left
        intro c _
        simp only [Function.comp, List.take_succ_cons, List.map_cons, List.sum_cons]
        rw [List.getD_eq_getElem?_getD, List.getD_eq_getElem?_getD,
          List.getElem?_append_right (by simp; omega)]
        congr 2
        simp
        omega

/-- How a variable of the converted space relates to the variable at the same position. -/
structure VarConv (us : List (ℚ × ℚ)) (sp : Space) (v v' : EVar) : Prop where
  unit : UnitFor (us.getD v.idxObj (1, 0)) v.kind
  kind : v'.kind = convKind (us.getD v.idxObj (1, 0)) v.kind
  obj : v'.idxObj = v.idxObj
  model : v'.idxModel = v.idxModel
  cols : v.idxModel.map (fun c => (colUnits us sp.kinds).getD c (1, 0))
    = List.replicate (width v.kind) (us.getD v.idxObj (1, 0))

theorem widths_conv (h : OtherUnits us sp sp') : sp'.kinds.map width = sp.kinds.map width := by
  have := h.rescaled.widths
  simpa [Space.kinds, List.map_map, Function.comp_def, dimInModel_width] using this

theorem vars_conv (h : OtherUnits us sp sp') : List.Forall₂ (VarConv us sp) sp.expanded sp'.expanded := by
  obtain ⟨config, cs, hd⟩ := h.built
  obtain ⟨config', cs', hd'⟩ := h.built'
  have hlen := h.rescaled.length
  rw [List.forall₂_iff_get]
  refine ⟨hlen.2.symm, fun i h1 h2 => ?_⟩
  have l1 := C07_layout hd h.noBandit i _ (List.getElem?_eq_getElem h1)
  have l2 := C07_layout hd' h.noBandit' i _ (List.getElem?_eq_getElem h2)
  rw [← space_kinds_eq hd] at l1
  rw [← space_kinds_eq hd'] at l2
  have hui : i < us.length := by omega
  have hu := List.getElem?_eq_getElem hui
  have hunit : us.getD (sp.expanded[i]).idxObj (1, 0) = us[i] := by
    rw [l1.1, List.getD_eq_getElem?_getD, hu]; rfl
  have hk : (sp'.expanded[i]).kind = convKind us[i] (sp.expanded[i]).kind := by
    have h3 := congrArg (fun l : List Kind => l[i]?) h.kinds
    simp only [List.getElem?_map, List.getElem?_eq_getElem h2, Option.map_some,
      List.getElem?_zipWith, hu, List.getElem?_eq_getElem h1, Option.some.injEq] at h3
    exact h3
  simp only [List.get_eq_getElem]
  refine ⟨?_, ?_, by rw [l1.1, l2.1], ?_, ?_⟩
  · rw [hunit]
    have h3 := h.units
    rw [List.forall₂_iff_get] at h3
    have := h3.2 i hui (by simpa using h1)
    simpa using this
  · rw [hunit, hk]
  · rw [l1.2.2, l2.2.2, hk, width_conv, List.map_take, List.map_take, h.widths_conv]
  · rw [l1.2.2, hunit]
    exact colUnits_slice us sp.kinds i us[i] _ hu l1.2.1 (by rw [hlen.1]; simp [Space.kinds])

theorem find_reverse {R : EVar → EVar → Prop} {ex ex' : List EVar} (h : List.Forall₂ R ex ex')
    (hn : ex'.map EVar.name = ex.map EVar.name) (name : String) :
    (ex.reverse.find? (fun v => v.name == name) = none ∧ ex'.reverse.find? (fun v => v.name == name) = none) ∨
      ∃ v v', ex.reverse.find? (fun v => v.name == name) = some v ∧
        ex'.reverse.find? (fun v => v.name == name) = some v' ∧ R v v' := by
  have hr : List.Forall₂ (fun v v' => R v v' ∧ v'.name = v.name) ex ex' := by
    induction h with
    | nil => exact .nil
    | cons h1 _ ih =>
      simp only [List.map_cons, List.cons.injEq] at hn
      exact .cons ⟨h1, hn.1⟩ (ih hn.2)
  have hr2 := (List.forall₂_reverse_iff).2 hr
  generalize ex.reverse = a at hr2 ⊢
  generalize ex'.reverse = b at hr2 ⊢
  clear hr hn h
  induction hr2 with
  | nil => left; simp
  | @cons v v' a b h1 _ ih =>
    simp only [List.find?_cons, h1.2]
    cases v.name == name with
    | true => right; exact ⟨v, v', rfl, rfl, h1.1⟩
    | false => exact ih

theorem findVariable (h : OtherUnits us sp sp') (hn : sp'.expanded.map EVar.name = sp.expanded.map EVar.name)
    (name : String) :
    (∃ e, sp.findVariable name = .error e ∧ sp'.findVariable name = .error e) ∨
      ∃ v v', sp.findVariable name = .ok v ∧ sp'.findVariable name = .ok v' ∧ VarConv us sp v v' := by
  unfold Space.findVariable
  rcases find_reverse h.vars_conv hn name with ⟨h1, h2⟩ | ⟨v, v', h1, h2, h3⟩
  · left; exact ⟨_, by rw [h1], by rw [h2]⟩
  · right; exact ⟨v, v', by rw [h1], by rw [h2], h3⟩

theorem contextLoop (h : OtherUnits us sp sp')
    (hn : sp'.expanded.map EVar.name = sp.expanded.map EVar.name) (c : Context) :
    contextLoop sp' (convContext us sp c) = (contextLoop sp c).map fun r =>
      (r.1, r.2.1, convRow (r.1.map fun i => (colUnits us sp.kinds).getD i (1, 0)) r.2.2) := by
  induction c with
  | nil => rfl
  | cons p c ih =>
    obtain ⟨name, x⟩ := p
    have hcons : convContext us sp ((name, x) :: c)
        = (name, conv (contextUnit us sp name) x) :: convContext us sp c := rfl
    rw [hcons]
    simp only [GPyOpt.contextLoop, ih]
    rcases h.findVariable hn name with ⟨e, h1, h2⟩ | ⟨v, v', h1, h2, hv⟩
    · simp only [h1, h2]; rfl
    · have hu : contextUnit us sp name = us.getD v.idxObj (1, 0) := by
        simp only [contextUnit, h1]
      simp only [h1, h2, hu, hv.kind, objectiveToModel_conv hv.unit]
      cases he : v.kind.objectiveToModel x with
      | error e => rfl
      | ok entry =>
        simp only [Except_map_ok]
        cases GPyOpt.contextLoop sp c with
        | error e => rfl
        | ok r =>
          obtain ⟨im, io, vals⟩ := r
          simp only [Except_map_ok, hv.obj, hv.model, List.map_append, hv.cols]
          rw [convRow_append (by simp [objectiveToModel_length he])]

theorem configExpanded (h : OtherUnits us sp sp') :
    sp'.configExpanded.length = sp.configExpanded.length := by
  obtain ⟨config, cs, hd⟩ := h.built
  obtain ⟨config', cs', hd'⟩ := h.built'
  have h1 := (expandConfig_good hd h.noBandit).length_eq
  have h2 := (expandConfig_good hd' h.noBandit').length_eq
  rw [h1, h2]
  simp [Space.kinds, h.rescaled.length.2]

theorem pick_range (cu : List (ℚ × ℚ)) (n : Nat) (h : cu.length = n) :
    (List.range n).map (fun i => cu.getD i (1, 0)) = cu := by
  apply List.ext_getElem (by simp [h])
  intro i h1 h2
  simp at h1
  simp [List.getD_eq_getElem?_getD, h2]

theorem mapE_npGet_bounds {cu bs : List (ℚ × ℚ)} (hl : cu.length = bs.length) (idx : List Nat) :
    mapE (npGet (convBounds cu bs)) idx
      = (mapE (npGet bs) idx).map (convBounds (idx.map fun i => cu.getD i (1, 0))) := by
  induction idx with
  | nil => rfl
  | cons i idx ih =>
    simp only [mapE, ih]
    have : npGet (convBounds cu bs) i
        = (npGet bs i).map fun b => (conv (cu.getD i (1, 0)) b.1, conv (cu.getD i (1, 0)) b.2) := by
      simp only [npGet, convBounds, List.getElem?_zipWith]
      cases hb : bs[i]? with
      | none =>
        have : cu[i]? = none := by
          rw [List.getElem?_eq_none_iff] at hb ⊢
          omega
        simp [this]
      | some b =>
        have hi := (List.getElem?_eq_some_iff.1 hb).1
        have hc : cu[i]? = some cu[i] := List.getElem?_eq_getElem (by omega)
        simp [hc, List.getD_eq_getElem?_getD]
    rw [this]
    cases npGet bs i with
    | error e => rfl
    | ok b =>
      simp only [Except_map_ok]
      cases mapE (npGet bs) idx <;> simp [convBounds]

theorem getBounds_length (h : OtherUnits us sp sp') {bs : List (ℚ × ℚ)} (hb : sp.getBounds = .ok bs) :
    bs.length = sp.modelDim := by
  unfold Space.getBounds at hb
  obtain ⟨bss, h1, rfl⟩ := Except_map_eq_ok.1 hb
  rw [mapE_eq_ok] at h1
  unfold Space.modelDim
  have hu := h.rescaled
  clear hb h
  generalize us = us at hu
  generalize sp'.expanded = ex' at hu
  generalize sp.expanded = ex at hu h1
  induction hu generalizing bss with
  | nil => cases h1; rfl
  | @cons u us v v' vs vs' g1 g2 _ ih =>
    obtain ⟨b, bss', e1, e2, rfl⟩ := List.forall₂_cons_left_iff.1 h1
    rw [List.flatten_cons, List.length_append, ih _ e2, List.map_cons, List.sum_cons]
    congr 1
    cases hk : v.kind with
    | continuous lo hi => rw [hk] at e1; simp [Kind.getBounds] at e1; subst e1; rfl
    | discrete vals =>
      rw [hk] at e1
      cases vals with
      | nil => simp [Kind.getBounds, pyMin] at e1
      | cons a l => simp [Kind.getBounds, pyMin, pyMax] at e1; subst e1; rfl
    | categorical labels =>
      rw [hk] at e1; simp [Kind.getBounds] at e1; subst e1; simp [Kind.dimInModel]
    | bandit arms => rw [hk] at g1; exact g1.2.elim

theorem contextManager (h : OtherUnits us sp sp')
    (hn : sp'.expanded.map EVar.name = sp.expanded.map EVar.name) (c : Option Context) :
    contextManager sp' (c.map (convContext us sp))
      = (contextManager sp c).map (convCtx (colUnits us sp.kinds)) := by
  unfold GPyOpt.contextManager
  rw [h.modelDim, h.configExpanded, h.getBounds]
  cases hb : sp.getBounds with
  | error e => rfl
  | ok bs =>
    have hbl := h.getBounds_length hb
    simp only [Except_map_ok]
    cases c with
    | none =>
      simp only [Option.map_none, Except_map_ok, convCtx, pickUnits, List.map_nil, convRow_nil_right]
      rw [pick_range _ _ h.cols_length]
    | some c =>
      simp only [Option.map_some, h.contextLoop hn]
      cases GPyOpt.contextLoop sp c with
      | error e => rfl
      | ok r =>
        obtain ⟨im, io, vals⟩ := r
        simp only [Except_map_ok]
        rw [mapE_npGet_bounds (by rw [h.cols_length, hbl])]
        cases mapE (npGet bs) ((List.range sp.modelDim).filter fun i => i ∉ im) with
        | error e => rfl
        | ok ncb => rfl

/-! ### Rows with a context -/

theorem pickUnits_length (cu : List (ℚ × ℚ)) (idx : List Nat) : (pickUnits cu idx).length = idx.length := by
  simp [pickUnits]

theorem scatterB_conv {cu : List (ℚ × ℚ)} {idx : List Nat} {P : Nat → Prop} {x y vals : Vec}
    (hl : vals.length = idx.length ∨ vals = []) (h : ConvOn cu P x y) :
    PyRel (ConvOn cu fun j => P j ∨ j ∈ idx) (scatterB idx vals x)
      (scatterB idx (convRow (pickUnits cu idx) vals) y) := by
  unfold scatterB
  rw [convRow_length]
  by_cases hv : vals.length = idx.length
  · rw [if_pos hv, if_pos hv]
    exact scatter_conv idx hv h
  · rw [if_neg hv, if_neg hv]
    rcases hl with hl | rfl
    · exact absurd hl hv
    · simp [PyRel]

/-- The manager of a context covers all columns, with as many values as columns. -/
structure Covers (sp : Space) (c : Ctx) : Prop where
  values : c.contextValue.length = c.contextIndex.length
  all : ∀ i < sp.modelDim, i ∈ c.noncontextIndex ∨ i ∈ c.contextIndex
  lt : ∀ i ∈ c.noncontextIndex, i < sp.modelDim

theorem contextLoop_length (h : OtherUnits us sp sp') : ∀ (c : Context) {im io : List Nat} {vals : Vec},
    GPyOpt.contextLoop sp c = .ok (im, io, vals) → vals.length = im.length := by
  intro c
  induction c with
  | nil => intro im io vals h; cases h; rfl
  | cons p c ih =>
    intro im io vals hl
    obtain ⟨name, x⟩ := p
    simp only [GPyOpt.contextLoop] at hl
    cases hf : sp.findVariable name with
    | error e => simp [hf] at hl
    | ok v =>
      simp only [hf] at hl
      cases he : v.kind.objectiveToModel x with
      | error e => simp [he] at hl
      | ok entry =>
        simp only [he] at hl
        cases hr : GPyOpt.contextLoop sp c with
        | error e => simp [hr] at hl
        | ok r =>
          obtain ⟨im', io', vals'⟩ := r
          simp only [hr, Except.ok.injEq, Prod.mk.injEq] at hl
          obtain ⟨rfl, rfl, rfl⟩ := hl
          obtain ⟨v', -, hv⟩ := forall₂_mem_left h.vars_conv (mem_of_find hf).1
          have hw := congrArg List.length hv.cols
          simp only [List.length_map, List.length_replicate] at hw
          rw [List.length_append, List.length_append, ih hr, objectiveToModel_length he, hw]

theorem covers (h : OtherUnits us sp sp') {context : Option Context} {c : Ctx}
    (hc : GPyOpt.contextManager sp context = .ok c) : Covers sp c := by
  obtain ⟨vs, es, hok⟩ := contextManager_ok hc
  refine ⟨?_, ?_, ?_⟩
  · unfold GPyOpt.contextManager at hc
    cases hb : sp.getBounds with
    | error e => simp [hb] at hc
    | ok bs =>
      simp only [hb] at hc
      cases context with
      | none => simp only [Except.ok.injEq] at hc; subst hc; rfl
      | some c0 =>
        simp only at hc
        cases hl : GPyOpt.contextLoop sp c0 with
        | error e => simp [hl] at hc
        | ok r =>
          obtain ⟨im, io, vals⟩ := r
          simp only [hl] at hc
          cases hm : mapE (npGet bs) ((List.range sp.modelDim).filter fun i => i ∉ im) with
          | error e => simp only [hm] at hc; simp at hc
          | ok ncb =>
            simp only [hm, Except.ok.injEq] at hc
            subst hc
            exact h.contextLoop_length _ hl
  · intro i hi
    rw [hok.free, List.mem_filter]
    by_cases hm : i ∈ c.contextIndex
    · exact .inr hm
    · exact .inl ⟨List.mem_range.2 hi, by simpa using hm⟩
  · intro i hi
    rw [hok.free, List.mem_filter] at hi
    exact List.mem_range.1 hi.1

theorem expandVector_length {c : Ctx} {x y : Vec} (h : c.expandVector sp x = .ok y) :
    y.length = sp.modelDim := by
  have hB : ∀ {idx : List Nat} {vals row out : Vec}, scatterB idx vals row = .ok out →
      out.length = row.length := by
    intro idx vals row out hs
    unfold scatterB at hs
    split_ifs at hs
    · exact scatter_length hs
    · split at hs
      · exact scatter_length hs
      · cases hs
  unfold Ctx.expandVector at h
  cases hs : scatterB c.noncontextIndex x (List.replicate sp.modelDim 0) with
  | error e => simp [hs] at h
  | ok row =>
    simp only [hs] at h
    rw [hB h, hB hs]
    simp

theorem expandVector (h : OtherUnits us sp sp') {c : Ctx} (hcov : Covers sp c) {x : Vec}
    (hx : x.length = c.noncontextIndex.length ∨ x = []) :
    (convCtx (colUnits us sp.kinds) c).expandVector sp'
        (convRow (pickUnits (colUnits us sp.kinds) c.noncontextIndex) x)
      = (c.expandVector sp x).map (convRow (colUnits us sp.kinds)) := by
  apply PyRel.map_eq
  unfold Ctx.expandVector
  rw [h.modelDim]
  rcases (scatterB_conv (cu := colUnits us sp.kinds) (P := fun _ => False)
    (x := List.replicate sp.modelDim 0) (y := List.replicate sp.modelDim 0) hx
    ⟨rfl, fun _ => False.elim⟩).split with ⟨e, h1, h2⟩ | ⟨a, b, h1, h2, hab⟩
  · simp only [convCtx, h1, h2]; rfl
  simp only [convCtx, h1, h2]
  rcases (scatterB_conv (vals := c.contextValue) (idx := c.contextIndex) (.inl hcov.values) hab).split
    with ⟨e, h3, h4⟩ | ⟨a', b', h3, h4, hab'⟩
  · rw [h3, h4]; rfl
  · rw [h3, h4]
    refine hab'.all fun i hi => ?_
    have hl : a'.length = sp.modelDim := expandVector_length (sp := sp) (c := c) (x := x) (by
      unfold Ctx.expandVector; simp only [h1]; exact h3)
    rcases hcov.all i (hl ▸ hi) with hi | hi
    · exact .inl (.inr hi)
    · exact .inr hi

theorem x0NoContext (c : Ctx) (cu : List (ℚ × ℚ)) (x : Vec) :
    x0NoContext (some (convCtx cu c)) (convRow cu x)
      = (x0NoContext (some c) x).map (convRow (pickUnits cu c.noncontextIndex)) := by
  simp only [GPyOpt.x0NoContext, convCtx, pickUnits]
  induction c.noncontextIndex with
  | nil => rfl
  | cons i idx ih =>
    simp only [mapE, npGet_conv, ih]
    cases npGet x i with
    | error e => rfl
    | ok v =>
      simp only [Except_map_ok]
      cases mapE (npGet x) idx with
      | error e => rfl
      | ok r => simp

theorem fNoContext (h : OtherUnits us sp sp') {c : Ctx} (hcov : Covers sp c) {f f' : Vec → Py ℚ}
    (hf : ∀ x, f' (convRow (colUnits us sp.kinds) x) = f x) {y : Vec}
    (hy : y.length = c.noncontextIndex.length) :
    fNoContext (some (convCtx (colUnits us sp.kinds) c)) sp' f'
        (convRow (pickUnits (colUnits us sp.kinds) c.noncontextIndex) y)
      = fNoContext (some c) sp f y := by
  simp only [GPyOpt.fNoContext, h.expandVector hcov (.inl hy)]
  cases c.expandVector sp y with
  | error e => rfl
  | ok xx => simp [hf]

theorem zipTuple (h : OtherUnits us sp sp') (x : Vec) :
    zipTuple sp' (convRow (colUnits us sp.kinds) x) = (zipTuple sp x).map (convRow us) := by
  have := h.zipInputs [x]
  simp only [List.map_cons, List.map_nil] at this
  simp only [GPyOpt.zipTuple, this]
  simp only [Space.zipInputs, h.noBandit, Bool.false_eq_true, if_false, mapE]
  cases sp.modelToObjective x with
  | error e => rfl
  | ok y => simp [atleast2d]

theorem mem_conv (h : OtherUnits us sp sp') (x : Vec) (l : List Vec) :
    convRow us x ∈ l.map (convRow us) ↔ x ∈ l := by
  rw [List.mem_map]
  exact ⟨fun ⟨y, hy, he⟩ => convRow_inj h.pos he ▸ hy, fun hx => ⟨x, hx, rfl⟩⟩

theorem isDup (h : OtherUnits us sp sp') (dup : Option DupMgr) (x : Vec) :
    isDup (dup.map (convDup us)) sp' (convRow (colUnits us sp.kinds) x) = isDup dup sp x := by
  cases dup with
  | none => rfl
  | some dm =>
    have := h.zipTuple x
    simp only [GPyOpt.zipTuple] at this
    simp only [GPyOpt.isDup, Option.map_some, DupMgr.isUnzippedDup, DupMgr.isZippedDup, convDup]
    cases hz : sp.zipInputs [x] with
    | error e =>
      rw [hz] at this
      cases hz' : sp'.zipInputs [convRow (colUnits us sp.kinds) x] with
      | error e' => rw [hz'] at this; simpa using this
      | ok m => rw [hz'] at this; simp at this
    | ok m =>
      rw [hz] at this
      cases hz' : sp'.zipInputs [convRow (colUnits us sp.kinds) x] with
      | error e' => rw [hz'] at this; simp at this
      | ok m' =>
        rw [hz'] at this
        simp only [Except_map_ok, Except.ok.injEq] at this
        simp only [Except_map_ok, this, h.mem_conv]

/-! ### Local optimizer -/

/-- The pair of a location and a value, the location in other units. -/
def convPt (cu : List (ℚ × ℚ)) (p : Vec × ℚ) : Vec × ℚ := (convRow cu p.1, p.2)

theorem applyOptimizer (h : OtherUnits us sp sp') {c : Ctx} (hcov : Covers sp c) (dup : Option DupMgr)
    {opt opt' : (Vec → Py ℚ) → Vec → Py Vec}
    (ho : SameOptimizer c.noncontextIndex.length (pickUnits (colUnits us sp.kinds) c.noncontextIndex) opt opt')
    {f f' : Vec → Py ℚ} (hf : ∀ x, f' (convRow (colUnits us sp.kinds) x) = f x) (x0 : Vec) :
    applyOptimizer sp' (some (convCtx (colUnits us sp.kinds) c)) (dup.map (convDup us)) opt' f'
        (convRow (colUnits us sp.kinds) x0)
      = (applyOptimizer sp (some c) dup opt f x0).map (convPt (colUnits us sp.kinds)) := by
  unfold GPyOpt.applyOptimizer
  rw [x0NoContext, h.isDup dup]
  cases hx : GPyOpt.x0NoContext (some c) x0 with
  | error e => rfl
  | ok xs =>
    simp only [Except_map_ok]
    cases GPyOpt.isDup dup sp x0 with
    | error e => rfl
    | ok b =>
      cases b with
      | true => rfl
      | false =>
        simp only
        have hlen : xs.length = c.noncontextIndex.length := mapE_length hx
        obtain ⟨ho1, ho2⟩ := ho (GPyOpt.fNoContext (some c) sp f)
          (GPyOpt.fNoContext (some (convCtx (colUnits us sp.kinds) c)) sp' f') xs hlen
          fun y hy => h.fNoContext hcov hf hy
        rw [ho1]
        cases hy : opt (GPyOpt.fNoContext (some c) sp f) xs with
        | error e => rfl
        | ok y =>
          simp only [Except_map_ok, addContext, h.expandVector hcov (.inl (ho2 y hy))]
          cases he : c.expandVector sp y with
          | error e => rfl
          | ok yc =>
            simp only [Except_map_ok, h.roundOptimum2d (expandVector_length he)]
            cases sp.roundOptimum2d [yc] with
            | error e => rfl
            | ok m =>
              match m with
              | [] => rfl
              | [r] =>
                simp only [Except_map_ok, List.map_cons, List.map_nil, h.isDup dup, hf]
                cases GPyOpt.isDup dup sp r with
                | error e => rfl
                | ok b =>
                  cases b with
                  | true => cases f x0 <;> rfl
                  | false => cases f r <;> rfl
              | _ :: _ :: _ => rfl

theorem optimizedPoints (h : OtherUnits us sp sp') {c : Ctx} (hcov : Covers sp c) (dup : Option DupMgr)
    {opt opt' : Nat → (Vec → Py ℚ) → Vec → Py Vec}
    (ho : ∀ k, SameOptimizer c.noncontextIndex.length (pickUnits (colUnits us sp.kinds) c.noncontextIndex)
      (opt k) (opt' k))
    {f f' : Vec → Py ℚ} (hf : ∀ x, f' (convRow (colUnits us sp.kinds) x) = f x) (A : Mat) :
    optimizedPoints sp' (some (convCtx (colUnits us sp.kinds) c)) (dup.map (convDup us)) opt' f'
        (A.map (convRow (colUnits us sp.kinds)))
      = (optimizedPoints sp (some c) dup opt f A).map (List.map (convPt (colUnits us sp.kinds))) := by
  unfold GPyOpt.optimizedPoints
  rw [List.zipIdx_map]
  exact mapE_conv A.zipIdx fun a _ => h.applyOptimizer hcov dup (ho a.2) hf a.1

end Spec.OtherUnits

end GPyOpt
