import Verif.Props.Space
import Verif.Model.Context
import Mathlib.Data.List.Pairwise

/-! # Lemmas about contexts: scattering values into columns, splitting columns by variable -/

namespace GPyOpt

open Spec

/-- Elements of `l` at the positions (counted from `s`) where `p` holds. -/
def keep {α : Type} (p : Nat → Bool) : Nat → List α → List α
  | _, [] => []
  | s, a :: l => if p s then a :: keep p (s + 1) l else keep p (s + 1) l

theorem keep_map {α β : Type} (p : Nat → Bool) (f : α → β) (l : List α) : ∀ s,
    keep p s (l.map f) = (keep p s l).map f := by
  induction l with
  | nil => intro s; rfl
  | cons a l ih => intro s; simp only [List.map_cons, keep, ih]; split_ifs <;> rfl

theorem keep_forall₂ {α β : Type} {R : α → β → Prop} (p : Nat → Bool) {l : List α} {m : List β}
    (h : List.Forall₂ R l m) : ∀ s, List.Forall₂ R (keep p s l) (keep p s m) := by
  induction h with
  | nil => intro s; exact .nil
  | cons h1 _ ih =>
    intro s
    simp only [keep]
    split_ifs
    · exact .cons h1 (ih _)
    · exact ih _

theorem keep_sublist {α : Type} (p : Nat → Bool) (l : List α) : ∀ s, (keep p s l).Sublist l := by
  induction l with
  | nil => intro s; exact .slnil
  | cons a l ih =>
    intro s
    simp only [keep]
    split_ifs
    · exact (ih _).cons_cons a
    · exact (ih _).cons a

/-- Reading a list at the kept positions. -/
theorem mapE_npGet_filter_range {α : Type} (p : Nat → Bool) (l : List α) :
    mapE (npGet l) ((List.range l.length).filter p) = .ok (keep p 0 l) := by
  have gen : ∀ (l : List α) (pre : List α),
      mapE (npGet (pre ++ l)) (((List.range l.length).map (pre.length + ·)).filter p)
        = .ok (keep p pre.length l) := by
    intro l
    induction l with
    | nil => intro pre; rfl
    | cons a l ih =>
      intro pre
      have := ih (pre ++ [a])
      simp only [List.append_assoc, List.cons_append, List.nil_append, List.length_append,
        List.length_cons, List.length_nil, Nat.zero_add] at this
      rw [List.length_cons, List.range_succ_eq_map, List.map_cons, List.map_map, List.filter_cons]
      have hcomp : ((fun x => pre.length + x) ∘ Nat.succ) = fun x => pre.length + 1 + x := by
        funext x; simp; omega
      rw [hcomp]
      simp only [Nat.add_zero, keep]
      split_ifs with hp
      · simp [mapE, npGet, this]
      · exact this
  simpa using gen l []

theorem scatter_spec (idx : List Nat) : ∀ (vals row : Vec), idx.Nodup → (∀ i ∈ idx, i < row.length) →
    vals.length = idx.length →
    ∃ out, scatter idx vals row = .ok out ∧ out.length = row.length ∧
      idx.map (fun i => out[i]?) = vals.map some ∧ ∀ i, i ∉ idx → out[i]? = row[i]? := by
  induction idx with
  | nil =>
    intro vals row _ _ hl
    have : vals = [] := List.length_eq_zero_iff.1 hl
    subst this
    exact ⟨row, rfl, rfl, rfl, fun _ _ => rfl⟩
  | cons i idx ih =>
    intro vals row hnd hlt hl
    cases vals with
    | nil => simp at hl
    | cons v vals =>
      rw [List.nodup_cons] at hnd
      have hi := hlt i (by simp)
      obtain ⟨out, h1, h2, h3, h4⟩ := ih vals (row.set i v) hnd.2
        (fun j hj => by simpa using hlt j (by simp [hj])) (by simpa using hl)
      refine ⟨out, ?_, by simpa using h2, ?_, ?_⟩
      · simp [scatter, setCol, hi, h1]
      · rw [List.map_cons, List.map_cons, h3, h4 i hnd.1]
        simp [hi]
      · intro j hj
        rw [List.mem_cons, not_or] at hj
        rw [h4 j hj.2, List.getElem?_set_ne (Ne.symm hj.1)]

theorem scatterB_spec {idx : List Nat} {vals row : Vec} (h1 : idx.Nodup)
    (h2 : ∀ i ∈ idx, i < row.length) (h3 : vals.length = idx.length) :
    ∃ out, scatterB idx vals row = .ok out ∧ out.length = row.length ∧
      idx.map (fun i => out[i]?) = vals.map some ∧ ∀ i, i ∉ idx → out[i]? = row[i]? := by
  unfold scatterB
  rw [if_pos h3]
  exact scatter_spec idx vals row h1 h2 h3

/-- What the context loop collects: for every entry the variable it names and the encoded value. -/
theorem contextLoop_ok {sp : Space} {context : Context} {im io : List Nat} {vals : Vec}
    (h : contextLoop sp context = .ok (im, io, vals)) :
    ∃ (vs : List EVar) (es : List Vec),
      List.Forall₂ (fun nv v => sp.findVariable nv.1 = .ok v) context vs ∧
      List.Forall₂ (fun nv ve => ve.1.kind.objectiveToModel nv.2 = .ok ve.2) context (vs.zip es) ∧
      vs.length = es.length ∧
      im = vs.flatMap EVar.idxModel ∧ io = vs.map EVar.idxObj ∧ vals = es.flatten := by
  induction context generalizing im io vals with
  | nil =>
    simp [contextLoop] at h
    obtain ⟨rfl, rfl, rfl⟩ := h
    exact ⟨[], [], .nil, .nil, rfl, rfl, rfl, rfl⟩
  | cons nv context ih =>
    obtain ⟨name, x⟩ := nv
    simp only [contextLoop] at h
    cases hf : sp.findVariable name with
    | error e => simp [hf] at h
    | ok v =>
      simp only [hf] at h
      cases he : v.kind.objectiveToModel x with
      | error e => simp [he] at h
      | ok e =>
        simp only [he] at h
        cases hr : contextLoop sp context with
        | error e => simp [hr] at h
        | ok r =>
          obtain ⟨im', io', vals'⟩ := r
          simp [hr] at h
          obtain ⟨rfl, rfl, rfl⟩ := h
          obtain ⟨vs, es, h1, h2, h3, h4, h5, h6⟩ := ih hr
          refine ⟨v :: vs, e :: es, .cons hf h1, .cons he h2, by simp [h3], ?_, ?_, ?_⟩
          · simp [h4]
          · simp [h5]
          · simp [h6]

theorem contextLoop_total {sp : Space} {context : Context}
    (h : ∀ nv ∈ context, ∃ v, sp.findVariable nv.1 = .ok v ∧ Encodable v.kind nv.2) :
    ∃ r, contextLoop sp context = .ok r := by
  induction context with
  | nil => exact ⟨_, rfl⟩
  | cons nv context ih =>
    obtain ⟨name, x⟩ := nv
    obtain ⟨v, hv, he⟩ := h (name, x) (by simp)
    obtain ⟨⟨im, io, vals⟩, hr⟩ := ih (fun nv hnv => h nv (by simp [hnv]))
    exact ⟨(v.idxModel ++ im, v.idxObj :: io, encodeVal v.kind x ++ vals), by
      simp [contextLoop, hv, objectiveToModel_kind he, hr]⟩

theorem getBounds_total {config : List Desc} {cs : Option (List ConstrDict)} {sp : Space}
    (h : designSpace config cs = .ok sp) (hb : sp.hasBandit = false)
    (hne : ∀ k ∈ sp.kinds, NonEmptyDom k) :
    ∃ bs, sp.getBounds = .ok bs ∧ bs.length = sp.modelDim := by
  have hnb := space_noBandit h hb
  obtain ⟨bss, h1⟩ := mapE_total (f := fun v : EVar => v.kind.getBounds) (l := sp.expanded)
    fun v hv => by
      have hm : v.kind ∈ sp.kinds := List.mem_map_of_mem hv
      obtain ⟨bs, h1, _⟩ := kind_getBounds_spec (hnb _ hm) (hne _ hm)
      exact ⟨bs, h1⟩
  refine ⟨bss.flatten, by simp [Space.getBounds, h1], ?_⟩
  rw [modelDim_eq, List.length_flatten, Space.kinds, List.map_map]
  congr 1
  rw [mapE_eq_ok] at h1
  have hnb' : ∀ v ∈ sp.expanded, ∀ arms, v.kind ≠ .bandit arms := fun v hv =>
    hnb _ (List.mem_map_of_mem hv)
  have hne' : ∀ v ∈ sp.expanded, NonEmptyDom v.kind := fun v hv => hne _ (List.mem_map_of_mem hv)
  clear hnb hne h hb
  generalize sp.expanded = ex at *
  induction h1 with
  | nil => rfl
  | @cons v b vs bs hv _ ih =>
    obtain ⟨bs', h1, h2⟩ := kind_getBounds_spec (hnb' v (by simp)) (hne' v (by simp))
    rw [hv] at h1
    cases h1
    simp [h2.1, ih (fun v hv => hnb' v (by simp [hv])) (fun v hv => hne' v (by simp [hv]))]

/-- The relation between a context and the manager built from it. -/
structure CtxOk (sp : Space) (context : Context) (c : Ctx) (vs : List EVar) (es : List Vec) : Prop where
  find : List.Forall₂ (fun nv v => sp.findVariable nv.1 = .ok v) context vs
  enc : List.Forall₂ (fun nv ve => ve.1.kind.objectiveToModel nv.2 = .ok ve.2) context (vs.zip es)
  len : vs.length = es.length
  idx : c.contextIndex = vs.flatMap EVar.idxModel
  obj : c.contextIndexObj = vs.map EVar.idxObj
  vals : c.contextValue = es.flatten
  free : c.noncontextIndex = (List.range sp.modelDim).filter (fun i => i ∉ c.contextIndex)
  freeObj : c.nocontextIndexObj
    = (List.range sp.configExpanded.length).filter (fun i => i ∉ c.contextIndexObj)

theorem contextManager_ok {sp : Space} {context : Option Context} {c : Ctx}
    (h : contextManager sp context = .ok c) : ∃ vs es, CtxOk sp (context.getD []) c vs es := by
  unfold contextManager at h
  cases hb : sp.getBounds with
  | error e => simp [hb] at h
  | ok bounds =>
    simp only [hb] at h
    cases context with
    | none =>
      simp only [Except.ok.injEq] at h
      subst h
      exact ⟨[], [], .nil, .nil, rfl, rfl, rfl, rfl, by simp, by simp⟩
    | some ctx =>
      simp only at h
      cases hl : contextLoop sp ctx with
      | error e => simp [hl] at h
      | ok r =>
        obtain ⟨im, io, vals⟩ := r
        simp only [hl] at h
        cases hm : mapE (npGet bounds) ((List.range sp.modelDim).filter (fun i => i ∉ im)) with
        | error e => simp only [hm] at h; simp at h
        | ok ncb =>
          simp only [hm, Except.ok.injEq] at h
          obtain ⟨vs, es, h1, h2, h3, h4, h5, h6⟩ := contextLoop_ok hl
          subst h
          exact ⟨vs, es, h1, h2, h3, h4, h5, h6, rfl, rfl⟩

theorem objectiveToModel_length {k : Kind} {x : ℚ} {e : Vec} (h : k.objectiveToModel x = .ok e) :
    e.length = width k := by
  cases k with
  | continuous lo hi => simp [Kind.objectiveToModel] at h; subst h; rfl
  | discrete vals => simp [Kind.objectiveToModel] at h; subst h; rfl
  | categorical labels =>
    simp only [Kind.objectiveToModel] at h
    cases hp : pyIndex labels.length (pyInt x) with
    | none => simp [hp] at h
    | some i => simp [hp] at h; subst h; simp [width]
  | bandit arms => simp [Kind.objectiveToModel] at h

theorem flatten_inj {α : Type} {A B : List (List α)}
    (h : List.Forall₂ (fun a b => a.length = b.length) A B) (he : A.flatten = B.flatten) : A = B := by
  induction h with
  | nil => rfl
  | cons h1 _ ih =>
    simp only [List.flatten_cons] at he
    obtain ⟨h2, h3⟩ := List.append_inj he h1
    rw [h2, ih h3]

theorem filter_flatten_keep (p : Nat → Bool) (q : Nat → Bool) (L : List (List Nat)) : ∀ s,
    (∀ j b, L[j]? = some b → ∀ i ∈ b, q i = p (s + j)) →
    L.flatten.filter q = (keep p s L).flatten := by
  induction L with
  | nil => intro s _; rfl
  | cons b L ih =>
    intro s h
    have h0 := h 0 b rfl
    have ih' := ih (s + 1) (fun j b' hj i hi => by
      rw [h (j + 1) b' (by simpa using hj) i hi]; congr 1; omega)
    simp only [List.flatten_cons, List.filter_append, ih', keep, Nat.add_zero] at h0 ⊢
    split_ifs with hp
    · rw [List.filter_eq_self.2 (fun i hi => by rw [h0 i hi, hp]), List.flatten_cons]
    · rw [List.filter_eq_nil_iff.2 (fun i hi => by rw [h0 i hi]; exact hp), List.nil_append]

theorem filterMap_eq_of_map_some {l : List Nat} {out vals : Vec}
    (h : l.map (fun i => out[i]?) = vals.map some) : l.filterMap (fun i => out[i]?) = vals := by
  have : l.filterMap (fun i => out[i]?) = (l.map (fun i => out[i]?)).filterMap id := by
    rw [List.filterMap_map]; rfl
  rw [this, h, List.filterMap_map]
  simp

theorem range_filterMap_self (out : Vec) : (List.range out.length).filterMap (fun i => out[i]?) = out := by
  apply filterMap_eq_of_map_some
  apply List.ext_getElem (by simp)
  intro i h1 h2
  simp at h1
  simp [h1]

theorem filterMap_length {l : List Nat} {out : Vec} (h : ∀ i ∈ l, i < out.length) :
    (l.filterMap (fun i => out[i]?)).length = l.length := by
  induction l with
  | nil => rfl
  | cons i l ih =>
    rw [List.filterMap_cons, List.getElem?_eq_getElem (h i (by simp))]
    simp [ih (fun j hj => h j (by simp [hj]))]

theorem expanded_nodup {config : List Desc} {cs : Option (List ConstrDict)} {sp : Space}
    (h : designSpace config cs = .ok sp) (hb : sp.hasBandit = false) :
    (sp.expanded.map EVar.idxObj) = List.range sp.expanded.length := by
  apply List.ext_getElem (by simp)
  intro i h1 h2
  simp only [List.getElem_map, List.getElem_range]
  simp at h1
  exact (Props.C07_layout h hb i _ (List.getElem?_eq_getElem h1)).1

/-- Different variables have disjoint model columns. -/
theorem idxModel_disjoint {config : List Desc} {cs : Option (List ConstrDict)} {sp : Space}
    (h : designSpace config cs = .ok sp) (hb : sp.hasBandit = false) {v w : EVar}
    (hv : v ∈ sp.expanded) (hw : w ∈ sp.expanded) (hne : v ≠ w) :
    List.Disjoint v.idxModel w.idxModel := by
  have ht := (Props.C07_tiling h hb).1
  have hnd : (sp.expanded.flatMap EVar.idxModel).Nodup := ht ▸ List.nodup_range
  rw [List.nodup_flatMap] at hnd
  have : Std.Symm (Function.onFun List.Disjoint EVar.idxModel) := ⟨fun _ _ hd _ h1 h2 => hd h2 h1⟩
  exact hnd.2.forall hv hw hne

theorem mem_of_find {sp : Space} {name : String} {v : EVar} (h : sp.findVariable name = .ok v) :
    v ∈ sp.expanded ∧ v.name = name := (Props.C09_unknown_name sp name).2 v h

theorem eq_of_idxObj {config : List Desc} {cs : Option (List ConstrDict)} {sp : Space}
    (h : designSpace config cs = .ok sp) (hb : sp.hasBandit = false) {v w : EVar}
    (hv : v ∈ sp.expanded) (hw : w ∈ sp.expanded) (he : v.idxObj = w.idxObj) : v = w := by
  obtain ⟨i, hi⟩ := List.getElem?_of_mem hv
  obtain ⟨j, hj⟩ := List.getElem?_of_mem hw
  have h1 := (Props.C07_layout h hb i v hi).1
  have h2 := (Props.C07_layout h hb j w hj).1
  have : i = j := by omega
  subst this
  rw [hi] at hj
  cases hj
  rfl

/-- The variables named by a context without repeated keys are distinct members of the space. -/
theorem CtxOk.nodup {sp : Space} {context : Context} {c : Ctx} {vs : List EVar} {es : List Vec}
    (hc : CtxOk sp context c vs es) (hnd : (context.map Prod.fst).Nodup) :
    vs.Nodup ∧ ∀ v ∈ vs, v ∈ sp.expanded := by
  have hf := hc.find
  have h1 : vs.map EVar.name = context.map Prod.fst := by
    clear hnd hc
    induction hf with
    | nil => rfl
    | cons h1 _ ih => simp [(mem_of_find h1).2, ih]
  constructor
  · exact List.Nodup.of_map EVar.name (h1 ▸ hnd)
  · intro v hv
    clear hc hnd h1
    induction hf with
    | nil => simp at hv
    | cons h1 _ ih =>
      rcases List.mem_cons.1 hv with rfl | hv
      · exact (mem_of_find h1).1
      · exact ih hv

/-- Context and free columns. -/
theorem CtxOk.columns {config : List Desc} {cs : Option (List ConstrDict)} {sp : Space}
    (h : designSpace config cs = .ok sp) (hb : sp.hasBandit = false)
    {context : Context} {c : Ctx} {vs : List EVar} {es : List Vec}
    (hc : CtxOk sp context c vs es) (hnd : (context.map Prod.fst).Nodup) :
    c.contextIndex.Nodup ∧ (∀ i ∈ c.contextIndex, i < sp.modelDim) ∧
    c.contextValue.length = c.contextIndex.length ∧
    c.noncontextIndex
      = (keep (fun j => decide (j ∉ c.contextIndexObj)) 0 (sp.expanded.map EVar.idxModel)).flatten := by
  obtain ⟨hvnd, hvm⟩ := hc.nodup hnd
  have ht := (Props.C07_tiling h hb).1
  have hnd0 : (sp.expanded.flatMap EVar.idxModel).Nodup := ht ▸ List.nodup_range
  refine ⟨?_, ?_, ?_, ?_⟩
  · rw [hc.idx, List.nodup_flatMap]
    refine ⟨fun v hv => (List.nodup_flatMap.1 hnd0).1 v (hvm v hv), ?_⟩
    have hvm' := hvm
    clear hc
    induction hvnd with
    | nil => exact .nil
    | @cons v vs h1 _ ih =>
      refine .cons ?_ (ih (fun w hw => hvm w (by simp [hw])) (fun w hw => hvm' w (by simp [hw])))
      intro w hw
      exact idxModel_disjoint h hb (hvm v (by simp)) (hvm w (by simp [hw])) (h1 w hw)
  · intro i hi
    rw [hc.idx, List.mem_flatMap] at hi
    obtain ⟨v, hv, hi⟩ := hi
    have : i ∈ sp.expanded.flatMap EVar.idxModel := List.mem_flatMap.2 ⟨v, hvm v hv, hi⟩
    rw [ht] at this
    exact List.mem_range.1 this
  · rw [hc.vals, hc.idx, List.flatMap_def, List.length_flatten, List.length_flatten, List.map_map]
    congr 1
    have henc := hc.enc
    have hlen := hc.len
    have hvm' := hvm
    clear hc hvnd hnd
    induction vs generalizing es context with
    | nil =>
      cases es with
      | nil => rfl
      | cons _ _ => simp at hlen
    | cons v vs ih =>
      cases es with
      | nil => simp at hlen
      | cons e es =>
        obtain ⟨nv, context', h1, h2, rfl⟩ := List.forall₂_cons_right_iff.1 henc
        obtain ⟨i, hi⟩ := List.getElem?_of_mem (hvm v (by simp))
        have hm := (Props.C07_layout h hb i v hi).2.2
        simp only [List.map_cons, Function.comp]
        rw [objectiveToModel_length h1, hm, List.length_map, List.length_range]
        congr 1
        exact ih (fun w hw => hvm w (by simp [hw])) h2 (by simpa using hlen)
          (fun w hw => hvm w (by simp [hw]))
  · rw [hc.free, ← ht, List.flatMap_def]
    apply filter_flatten_keep
    intro j b hj i hi
    rw [List.getElem?_map, Option.map_eq_some_iff] at hj
    obtain ⟨v, hv, rfl⟩ := hj
    have hvj := (Props.C07_layout h hb j v hv).1
    rw [Nat.zero_add]
    congr 1
    rw [hc.idx, hc.obj, eq_iff_iff, not_iff_not, List.mem_flatMap, List.mem_map]
    constructor
    · rintro ⟨w, hw, hiw⟩
      refine ⟨w, hw, ?_⟩
      by_contra hne
      have : v ≠ w := fun hc => hne (by rw [← hc, hvj])
      exact idxModel_disjoint h hb (List.mem_of_getElem? hv) (hvm w hw) this hi hiw
    · rintro ⟨w, hw, hwj⟩
      have : v = w := eq_of_idxObj h hb (List.mem_of_getElem? hv) (hvm w hw) (by rw [hvj, hwj])
      exact ⟨w, hw, this ▸ hi⟩

/-- Expansion in terms of the blocks of the variables. -/
theorem expandVector_blocks {config : List Desc} {cs : Option (List ConstrDict)} {sp : Space}
    (h : designSpace config cs = .ok sp) (hb : sp.hasBandit = false)
    {context : Context} {c : Ctx} {vs : List EVar} {es : List Vec}
    (hc : CtxOk sp context c vs es) (hnd : (context.map Prod.fst).Nodup)
    (x : Vec) (hx : x.length = c.noncontextIndex.length) :
    ∃ bin : List Vec, c.expandVector sp x = .ok bin.flatten ∧
      List.Forall₂ (fun k b => b.length = width k) sp.kinds bin ∧
      bin.flatten.length = sp.modelDim ∧
      List.Forall₂ (fun v e => bin[v.idxObj]? = some e) vs es ∧
      (keep (fun j => decide (j ∉ c.contextIndexObj)) 0 bin).flatten = x ∧
      c.noncontextIndex.map (fun i => bin.flatten[i]?) = x.map some ∧
      c.contextIndex.map (fun i => bin.flatten[i]?) = c.contextValue.map some := by
  obtain ⟨hcnd, hclt, hclen, hfree⟩ := hc.columns h hb hnd
  obtain ⟨hvnd, hvm⟩ := hc.nodup hnd
  have ht := (Props.C07_tiling h hb).1
  have hfnd : c.noncontextIndex.Nodup := by rw [hc.free]; exact List.nodup_range.filter _
  have hflt : ∀ i ∈ c.noncontextIndex, i < sp.modelDim := by
    intro i hi
    rw [hc.free, List.mem_filter] at hi
    exact List.mem_range.1 hi.1
  have hdisj : ∀ i ∈ c.noncontextIndex, i ∉ c.contextIndex := by
    intro i hi
    rw [hc.free, List.mem_filter] at hi
    simpa using hi.2
  obtain ⟨r1, h1, h2, h3, h4⟩ := scatterB_spec (row := List.replicate sp.modelDim 0) hfnd
    (by simpa using hflt) hx
  obtain ⟨out, g1, g2, g3, g4⟩ := scatterB_spec (row := r1) hcnd (by rw [h2]; simpa using hclt) hclen
  have hout : out.length = sp.modelDim := by rw [g2, h2]; simp
  have hfreeout : c.noncontextIndex.map (fun i => out[i]?) = x.map some := by
    rw [← h3]
    apply List.map_congr_left
    intro i hi
    exact g4 i (hdisj i hi)
  set bin := sp.expanded.map (fun v => v.idxModel.filterMap (fun i => out[i]?)) with hbin
  have hflat : bin.flatten = out := by
    have : bin.flatten = (sp.expanded.flatMap EVar.idxModel).filterMap (fun i => out[i]?) := by
      rw [List.filterMap_flatMap, List.flatMap_def]
    rw [this, ht, ← hout, range_filterMap_self]
  have hlt : ∀ v ∈ sp.expanded, ∀ i ∈ v.idxModel, i < out.length := by
    intro v hv i hi
    have : i ∈ sp.expanded.flatMap EVar.idxModel := List.mem_flatMap.2 ⟨v, hv, hi⟩
    rw [ht] at this
    rw [hout]
    exact List.mem_range.1 this
  have hwid : ∀ v ∈ sp.expanded, (v.idxModel.filterMap (fun i => out[i]?)).length = width v.kind := by
    intro v hv
    rw [filterMap_length (hlt v hv)]
    obtain ⟨i, hi⟩ := List.getElem?_of_mem hv
    rw [(Props.C07_layout h hb i v hi).2.2, List.length_map, List.length_range]
  refine ⟨bin, ?_, ?_, ?_, ?_, ?_, ?_, ?_⟩
  · simp [Ctx.expandVector, h1, g1, hflat]
  · rw [hbin, Space.kinds, List.forall₂_map_left_iff, List.forall₂_map_right_iff, List.forall₂_same]
    exact hwid
  · rw [hflat, hout]
  · have hA : (vs.map (fun v => v.idxModel.filterMap (fun i => out[i]?))).flatten = es.flatten := by
      rw [← List.flatMap_def, ← hc.vals, ← filterMap_eq_of_map_some g3, hc.idx, List.filterMap_flatMap]
    have hB : List.Forall₂ (fun a b : Vec => a.length = b.length)
        (vs.map (fun v => v.idxModel.filterMap (fun i => out[i]?))) es := by
      have henc := hc.enc
      have hlen := hc.len
      clear hA hc hvnd hnd hcnd hclt hclen hfree hfnd hflt hdisj h1 h2 h3 h4 g1 g3 g4 hfreeout
      induction vs generalizing es context with
      | nil =>
        cases es with
        | nil => exact .nil
        | cons _ _ => simp at hlen
      | cons v vs ih =>
        cases es with
        | nil => simp at hlen
        | cons e es =>
          obtain ⟨nv, context', h1, h2, rfl⟩ := List.forall₂_cons_right_iff.1 henc
          exact .cons (by rw [hwid v (hvm v (by simp)), objectiveToModel_length h1])
            (ih (fun w hw => hvm w (by simp [hw])) h2 (by simpa using hlen))
    have hC := flatten_inj hB hA
    rw [← hC, List.forall₂_map_right_iff, List.forall₂_same]
    intro v hv
    obtain ⟨i, hi⟩ := List.getElem?_of_mem (hvm v hv)
    rw [(Props.C07_layout h hb i v hi).1, hbin, List.getElem?_map, hi]
    rfl
  · have : bin = (sp.expanded.map EVar.idxModel).map (fun l => l.filterMap (fun i => out[i]?)) := by
      rw [hbin, List.map_map]; rfl
    rw [this, keep_map, ← filterMap_eq_of_map_some hfreeout, hfree,
      List.filterMap_flatten]
  · rw [hflat, hfreeout]
  · rw [hflat, g3]

end GPyOpt
