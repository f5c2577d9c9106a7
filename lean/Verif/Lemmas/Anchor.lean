import Verif.Lemmas.Context
import Verif.Props.Design
import Verif.Props.Context
import Verif.Spec.Suggest
import Verif.Model.Anchor

/-! # Lemmas about anchor points and about rows that carry a context -/

namespace GPyOpt

open Spec Props

theorem keep_zipWith {α β γ : Type} (p : Nat → Bool) (f : α → β → γ) (l : List α) : ∀ (m : List β) (s : Nat),
    keep p s (List.zipWith f l m) = List.zipWith f (keep p s l) (keep p s m) ∨ l.length ≠ m.length := by
  induction l with
  | nil => intro m s; cases m <;> simp [keep]
  | cons a l ih =>
    intro m s
    cases m with
    | nil => simp
    | cons b m =>
      rcases ih m (s + 1) with h | h
      · left
        simp only [List.zipWith_cons_cons, keep, h]
        split_ifs <;> rfl
      · right; simpa using h

/-- A relation that holds at the kept positions and at the others holds everywhere. -/
theorem forall₂_of_keep {α β : Type} {R : α → β → Prop} (p : Nat → Bool) (l : List α) :
    ∀ (m : List β) (s : Nat), l.length = m.length →
    List.Forall₂ R (keep p s l) (keep p s m) →
    (∀ (j : Nat) a b, p (s + j) = false → l[j]? = some a → m[j]? = some b → R a b) →
    List.Forall₂ R l m := by
  induction l with
  | nil => intro m s hl _ _; cases m with | nil => exact .nil | cons _ _ => simp at hl
  | cons a l ih =>
    intro m s hl hk hc
    cases m with
    | nil => simp at hl
    | cons b m =>
      have hc' : ∀ (j : Nat) a b, p (s + 1 + j) = false → l[j]? = some a → m[j]? = some b → R a b :=
        fun j a b hp h1 h2 => hc (j + 1) a b (by rw [← hp]; congr 1; omega) (by simpa using h1) (by simpa using h2)
      simp only [keep] at hk
      by_cases hp : p s = true
      · simp only [hp, if_true, List.forall₂_cons] at hk
        exact .cons hk.1 (ih m (s + 1) (by simpa using hl) hk.2 hc')
      · simp only [hp] at hk
        exact .cons (hc 0 a b (by simpa using hp) rfl rfl) (ih m (s + 1) (by simpa using hl) (by simpa using hk) hc')

theorem encodeVal_inj {k : Kind} {x y : ℚ} (hx : Encodable k x) (hy : Encodable k y)
    (h : encodeVal k x = encodeVal k y) : x = y := by
  cases k with
  | continuous lo hi => simpa [encodeVal] using h
  | discrete vals => simpa [encodeVal] using h
  | categorical labels =>
    obtain ⟨i, hi, rfl⟩ := hx
    obtain ⟨j, hj, rfl⟩ := hy
    rw [encodeVal_categorical, encodeVal_categorical] at h
    rw [oneHot_injective hi hj h]
  | bandit arms => exact absurd hx (by simp [Encodable])

theorem validBlock_encodeVal {k : Kind} {x : ℚ} (h : ValidObj k x) : ValidBlock k (encodeVal k x) := by
  cases k with
  | continuous lo hi => exact ⟨x, rfl, h⟩
  | discrete vals => exact ⟨x, h, rfl⟩
  | categorical labels =>
    obtain ⟨i, hi, rfl⟩ := h
    exact ⟨i, hi, encodeVal_categorical labels i⟩
  | bandit arms => exact absurd h (by simp [ValidObj])

theorem zipWith_encodeVal_inj {ks : List Kind} {x y : Vec} (hx : List.Forall₂ Encodable ks x)
    (hy : List.Forall₂ Encodable ks y)
    (h : List.zipWith encodeVal ks x = List.zipWith encodeVal ks y) : x = y := by
  induction hx generalizing y with
  | nil => cases hy; rfl
  | cons h1 _ ih =>
    cases hy with
    | cons h2 hy =>
      simp only [List.zipWith_cons_cons, List.cons.injEq] at h
      rw [encodeVal_inj h1 h2 h.1, ih hy h.2]

theorem zipWith_encodeVal_width {ks : List Kind} {x : Vec} (hx : List.Forall₂ Encodable ks x) :
    List.Forall₂ (fun k b => b.length = width k) ks (List.zipWith encodeVal ks x) := by
  induction hx with
  | nil => exact .nil
  | cons h1 _ ih => exact .cons (encodeVal_length h1) ih

theorem forall₂_length_trans {ks : List Kind} {A B : List Vec}
    (hA : List.Forall₂ (fun k b => b.length = width k) ks A)
    (hB : List.Forall₂ (fun k b => b.length = width k) ks B) :
    List.Forall₂ (fun a b : Vec => a.length = b.length) A B := by
  induction hA generalizing B with
  | nil => cases hB; exact .nil
  | cons h1 _ ih => cases hB with | cons h2 hB => exact .cons (h1.trans h2.symm) (ih hB)

/-- encodings determine the objective row -/
theorem encodeRow_inj {ks : List Kind} {x y : Vec} (hx : List.Forall₂ Encodable ks x)
    (hy : List.Forall₂ Encodable ks y) (h : encodeRow ks x = encodeRow ks y) : x = y :=
  zipWith_encodeVal_inj hx hy
    (flatten_inj (forall₂_length_trans (zipWith_encodeVal_width hx) (zipWith_encodeVal_width hy)) h)

theorem exists_objRow {ks : List Kind} {bin : List Vec}
    (h : List.Forall₂ (fun k b => ∃ y, ValidObj k y ∧ b = encodeVal k y) ks bin) :
    ∃ z, ObjDomain ks z ∧ bin = List.zipWith encodeVal ks z := by
  induction h with
  | nil => exact ⟨[], .nil, rfl⟩
  | cons h1 _ ih =>
    obtain ⟨y, hy, rfl⟩ := h1
    obtain ⟨z, hz, rfl⟩ := ih
    exact ⟨y :: z, .cons hy hz, rfl⟩

theorem validContext_good {sp : Space} {context : Option Context} (h : ValidContext sp context) :
    GoodContext sp context :=
  ⟨h.1, fun nv hnv => (h.2 nv hnv).imp fun _ hv => ⟨hv.1, encodable_of_validObj hv.2⟩⟩

/-- the encoded context values, entry by entry -/
theorem CtxOk.values {sp : Space} {context : Context} {c : Ctx} {vs : List EVar} {es : List Vec}
    (hc : CtxOk sp context c vs es)
    (hg : ∀ nv ∈ context, ∃ v, sp.findVariable nv.1 = .ok v ∧ Encodable v.kind nv.2) :
    List.Forall₂ (fun nv ve => sp.findVariable nv.1 = .ok ve.1 ∧ ve.2 = encodeVal ve.1.kind nv.2)
      context (vs.zip es) := by
  obtain ⟨h1, h2, h3, -⟩ := hc
  clear * - h1 h2 h3 hg
  induction h1 generalizing es with
  | nil => simp at h2 ⊢
  | @cons nv v context vs hf _ ih =>
    cases es with
    | nil => simp at h3
    | cons e es =>
      simp only [List.zip_cons_cons, List.forall₂_cons] at h2 ⊢
      refine ⟨⟨hf, ?_⟩, ih (fun nv hnv => hg nv (by simp [hnv])) h2.2 (by simpa using h3)⟩
      obtain ⟨v', hv', he⟩ := hg nv (by simp)
      rw [hf] at hv'; cases hv'
      have := h2.1
      rw [objectiveToModel_kind he] at this
      cases this; rfl

theorem forall₂_zip_iff {α β γ : Type} {R : α → β × γ → Prop} {l : List α} {vs : List β} {es : List γ}
    (h : List.Forall₂ R l (vs.zip es)) (hl : vs.length = es.length) {v : β} (hv : v ∈ vs) :
    ∃ nv ∈ l, ∃ e, (v, e) ∈ vs.zip es ∧ R nv (v, e) := by
  obtain ⟨i, hi⟩ := List.getElem?_of_mem hv
  have hil := (List.getElem?_eq_some_iff.1 hi).1
  have hm : (v, es[i]) ∈ vs.zip es := by
    refine List.mem_of_getElem? (i := i) (List.getElem?_zip_eq_some.2 ⟨hi, ?_⟩)
    exact List.getElem?_eq_getElem (by omega)
  obtain ⟨nv, hnv, hr⟩ := forall₂_mem_right h hm
  exact ⟨nv, hnv, _, hm, hr⟩

theorem forall₂_of_mem_zip {α β : Type} {R : α → β → Prop} {l : List α} {m : List β}
    (h : List.Forall₂ R l m) {a : α} {b : β} (hm : (a, b) ∈ l.zip m) : R a b := by
  induction h with
  | nil => simp at hm
  | cons h1 _ ih =>
    simp only [List.zip_cons_cons, List.mem_cons, Prod.mk.injEq] at hm
    rcases hm with ⟨rfl, rfl⟩ | hm
    · exact h1
    · exact ih hm

theorem kinds_getElem {config : List Desc} {cs : Option (List ConstrDict)} {sp : Space}
    (h : designSpace config cs = .ok sp) (hb : sp.hasBandit = false) {v : EVar}
    (hv : v ∈ sp.expanded) : sp.kinds[v.idxObj]? = some v.kind := by
  obtain ⟨i, hi⟩ := List.getElem?_of_mem hv
  have h1 := C07_layout h hb i v hi
  rw [h1.1, space_kinds_eq h]
  exact h1.2.1

theorem zipWith_get {ks : List Kind} {z : Vec} {j : Nat} {k : Kind} {e : Vec}
    (hk : ks[j]? = some k) (he : (List.zipWith encodeVal ks z)[j]? = some e) :
    ∃ y, z[j]? = some y ∧ e = encodeVal k y := by
  rw [List.getElem?_zipWith] at he
  rw [hk] at he
  cases hz : z[j]? with
  | none => simp [hz] at he
  | some y => simp [hz] at he; exact ⟨y, rfl, he.symm⟩

/-- Blocks that contain the encoded context values belong to a row that carries the context. -/
theorem hasContext_of_blocks {config : List Desc} {cs : Option (List ConstrDict)} {sp : Space}
    (h : designSpace config cs = .ok sp) (hb : sp.hasBandit = false)
    {context : Option Context} (hg : ValidContext sp context) {c : Ctx} {vs : List EVar} {es : List Vec}
    (hc : CtxOk sp (context.getD []) c vs es) {z : Vec} (hz : ObjDomain sp.kinds z)
    (hblk : List.Forall₂ (fun v e => (List.zipWith encodeVal sp.kinds z)[v.idxObj]? = some e) vs es) :
    HasContext sp context z := by
  intro nv hnv v hf
  have hval := hc.values (validContext_good hg).2
  obtain ⟨ve, hve, hf', he⟩ := forall₂_mem_left hval hnv
  rw [hf] at hf'; injection hf' with hf'
  have hb1 := forall₂_of_mem_zip hblk (a := ve.1) (b := ve.2) hve
  rw [← hf'] at hb1 he
  have hk := kinds_getElem h hb (mem_of_find hf).1
  obtain ⟨y, hy, hye⟩ := zipWith_get hk hb1
  rw [he] at hye
  obtain ⟨v', hv', hval'⟩ := hg.2 nv hnv
  rw [hf] at hv'; injection hv' with hv'; subst hv'
  have hyv : ValidObj v.kind y := by
    have := hz
    rw [ObjDomain, List.forall₂_iff_get] at this
    obtain ⟨hlen, hget⟩ := this
    obtain ⟨h1, h2⟩ := List.getElem?_eq_some_iff.1 hk
    obtain ⟨h3, h4⟩ := List.getElem?_eq_some_iff.1 hy
    have := hget v.idxObj h1 h3
    simp only [List.get_eq_getElem, h2, h4] at this
    exact this
  rw [hy, encodeVal_inj (encodable_of_validObj hval') (encodable_of_validObj hyv) hye]

theorem validBlocks_width {ks : List Kind} (hnb : NoBandit ks) {bs : List Vec}
    (h : List.Forall₂ ValidBlock ks bs) : List.Forall₂ (fun k b => b.length = width k) ks bs := by
  induction h with
  | nil => exact .nil
  | cons hv _ ih =>
    exact .cons (validBlock_length (hnb _ (by simp)) hv) (ih fun k hk => hnb k (by simp [hk]))

/-- which positions are free -/
def freePos (c : Ctx) : Nat → Bool := fun j => decide (j ∉ c.contextIndexObj)

/-- Expanding the encoding of a row of the free variables gives the encoding of a row of the full
space that carries the context. -/
theorem expand_encode {config : List Desc} {cs : Option (List ConstrDict)} {sp : Space}
    (h : designSpace config cs = .ok sp) (hb : sp.hasBandit = false)
    {context : Option Context} (hg : ValidContext sp context) {c : Ctx}
    (hc : contextManager sp context = .ok c) {z' : Vec}
    (hz' : ObjDomain (keep (freePos c) 0 sp.kinds) z') :
    ∃ z, c.expandVector sp (encodeRow (keep (freePos c) 0 sp.kinds) z') = .ok (encodeRow sp.kinds z) ∧
      ObjDomain sp.kinds z ∧ HasContext sp context z ∧ keep (freePos c) 0 z = z' := by
  obtain ⟨vs, es, hcok⟩ := contextManager_ok hc
  obtain ⟨hcnd, hclt, hclen, hfree⟩ := hcok.columns h hb hg.1
  have hlenx : (encodeRow (keep (freePos c) 0 sp.kinds) z').length = c.noncontextIndex.length := by
    rw [encodeRow_length (encodable_of_objDomain hz'), hfree, List.length_flatten]
    show _ = ((keep (freePos c) 0 (sp.expanded.map EVar.idxModel)).map List.length).sum
    rw [← keep_map, ← keep_map, Space.kinds, List.map_map, List.map_map]
    congr 2
    apply List.map_congr_left
    intro v hv
    obtain ⟨i, hi⟩ := List.getElem?_of_mem hv
    simp [(C07_layout h hb i v hi).2.2]
  obtain ⟨bin, h1, h2, h3, h4, h5, -⟩ := expandVector_blocks h hb hcok hg.1 _ hlenx
  have hbw : List.Forall₂ (fun k b => b.length = width k) (keep (freePos c) 0 sp.kinds)
      (keep (freePos c) 0 bin) := keep_forall₂ _ h2 0
  have hkb : keep (freePos c) 0 bin = List.zipWith encodeVal (keep (freePos c) 0 sp.kinds) z' :=
    flatten_inj (forall₂_length_trans hbw (zipWith_encodeVal_width (encodable_of_objDomain hz'))) h5
  have hval := hcok.values (validContext_good hg).2
  have hR : List.Forall₂ (fun k b => ∃ y, ValidObj k y ∧ b = encodeVal k y) sp.kinds bin := by
    refine forall₂_of_keep (freePos c) _ _ 0 h2.length_eq ?_ ?_
    · rw [hkb]
      clear hkb h5 hlenx hbw h1
      generalize keep (freePos c) 0 sp.kinds = ks' at *
      induction hz' with
      | nil => exact .nil
      | cons hv _ ih => exact .cons ⟨_, hv, rfl⟩ ih
    · intro j k b hp hk hbj
      simp only [freePos, Nat.zero_add, decide_eq_false_iff_not, not_not, hcok.obj, List.mem_map] at hp
      obtain ⟨v, hv, rfl⟩ := hp
      obtain ⟨nv, hnv, e, hm, hf, he⟩ := forall₂_zip_iff hval hcok.len hv
      have := forall₂_of_mem_zip h4 hm
      rw [hbj] at this; cases this
      obtain ⟨v', hv', hvv⟩ := hg.2 nv hnv
      rw [hf] at hv'; injection hv' with hv'; subst hv'
      have hk' := kinds_getElem h hb (mem_of_find hf).1
      rw [hk] at hk'; cases hk'
      exact ⟨_, hvv, he⟩
  obtain ⟨z, hz, hbz⟩ := exists_objRow hR
  subst hbz
  refine ⟨z, h1, hz, hasContext_of_blocks h hb hg hcok hz h4, ?_⟩
  rcases keep_zipWith (freePos c) encodeVal sp.kinds z 0 with hkz | hkz
  · rw [hkb] at hkz
    exact zipWith_encodeVal_inj (encodable_of_objDomain (keep_forall₂ _ hz 0))
      (encodable_of_objDomain hz') hkz.symm
  · exact absurd hz.length_eq hkz

/-- Rounding an expanded vector keeps the context. -/
theorem round_expand {config : List Desc} {cs : Option (List ConstrDict)} {sp : Space}
    (h : designSpace config cs = .ok sp) (hb : sp.hasBandit = false)
    (hne : ∀ k ∈ sp.kinds, NonEmptyDom k) (hvar : sp.kinds ≠ [])
    {context : Option Context} (hg : ValidContext sp context) {c : Ctx}
    (hc : contextManager sp context = .ok c) {y : Vec} (hy : y.length = c.noncontextIndex.length) :
    ∃ yc z, c.expandVector sp y = .ok yc ∧ sp.roundOptimum2d [yc] = .ok [encodeRow sp.kinds z] ∧
      ObjDomain sp.kinds z ∧ HasContext sp context z := by
  obtain ⟨vs, es, hcok⟩ := contextManager_ok hc
  obtain ⟨bin, h1, h2, h3, h4, h5, -⟩ := expandVector_blocks h hb hcok hg.1 y hy
  have hk := space_kinds_eq h
  rw [modelDim_eq] at h3
  obtain ⟨bin', bout, e1, e2, e3, e4⟩ := C05_round_nearest h hb (hk ▸ hne) (hk ▸ hvar) bin.flatten (hk ▸ h3)
  rw [← hk] at e2 e4
  have hbb : bin = bin' := flatten_inj (forall₂_length_trans h2 e2) e1
  subst hbb
  have hvb := forall₂_zip_nearest_valid h2.length_eq e4
  have hnb := space_noBandit h hb
  obtain ⟨z, hz, hzb⟩ := exists_encodeRow hnb ⟨bout, hvb, rfl⟩
  have hbz : bout = List.zipWith encodeVal sp.kinds z := by
    refine flatten_inj (forall₂_length_trans ?_ (zipWith_encodeVal_width (encodable_of_objDomain hz))) hzb
    exact validBlocks_width hnb hvb
  refine ⟨_, z, h1, ?_, hz, ?_⟩
  · rw [Space.roundOptimum2d, e3, hzb]
  · refine hasContext_of_blocks h hb hg hcok hz ?_
    rw [← hbz]
    have hval := hcok.values (validContext_good hg).2
    rw [List.forall₂_iff_zip]
    refine ⟨hcok.len, ?_⟩
    intro v e hm
    obtain ⟨nv, hnv, hf, he⟩ := forall₂_mem_right hval hm
    simp only at hf he
    have hbj := forall₂_of_mem_zip h4 hm
    have hkj := kinds_getElem h hb (mem_of_find hf).1
    obtain ⟨v', hv', hvv⟩ := hg.2 nv hnv
    rw [hf] at hv'; injection hv' with hv'; subst hv'
    have hzip : (sp.kinds.zip bin)[v.idxObj]? = some (v.kind, e) :=
      List.getElem?_zip_eq_some.2 ⟨hkj, hbj⟩
    have e4' := e4
    rw [List.forall₂_iff_get] at e4'
    obtain ⟨hl, hget⟩ := e4'
    obtain ⟨g1, g2⟩ := List.getElem?_eq_some_iff.1 hzip
    have := hget v.idxObj g1 (by omega)
    simp only [List.get_eq_getElem, g2] at this
    rw [List.getElem?_eq_getElem (by omega), nearest_self (hnb _ (List.mem_of_getElem? hkj))
      (he ▸ validBlock_encodeVal hvv) this]

/-! ## Sampling -/

theorem keep_free {α : Type} {sp : Space} {context : Option Context} {c : Ctx}
    (hc : contextManager sp context = .ok c) {z : List α} (hl : z.length = sp.configExpanded.length) :
    c.nocontextIndexObj.filterMap (fun i => z[i]?) = keep (freePos c) 0 z := by
  obtain ⟨vs, es, hcok⟩ := contextManager_ok hc
  have h1 := mapE_npGet_filter_range (freePos c) z
  rw [hl] at h1
  rw [hcok.freeObj]
  change ((List.range sp.configExpanded.length).filter (freePos c)).filterMap _ = _
  generalize (List.range sp.configExpanded.length).filter (freePos c) = idx at *
  rw [mapE_eq_ok] at h1
  generalize keep (freePos c) 0 z = r at *
  clear hl hc hcok
  induction h1 with
  | nil => rfl
  | cons h2 _ ih => rw [List.filterMap_cons, npGet_ok.1 h2, ih]

/-- the free part is what is kept of the free positions -/
theorem freePart_eq {sp : Space} {context : Option Context} {c : Ctx}
    (hc : contextManager sp context = .ok c) {z : Vec} (hl : z.length = sp.configExpanded.length) :
    freePart c z = keep (freePos c) 0 z :=
  keep_free hc hl

theorem mapE_npGet_map_some {α : Type} {l r : List α} {idx : List Nat}
    (h : mapE (npGet l) idx = .ok r) : idx.map (fun i => l[i]?) = r.map some := by
  rw [mapE_eq_ok] at h
  induction h with
  | nil => rfl
  | cons h1 _ ih => rw [List.map_cons, List.map_cons, ih, npGet_ok.1 h1]

theorem map_some_inj {α : Type} {l m : List α} (h : l.map some = m.map some) : l = m :=
  List.map_injective_iff.2 (fun a b hab => by simpa using hab) h

/-- A row that carries the context is determined by the values of the free variables. -/
theorem eq_of_free_context {sp : Space} {context : Option Context} (hg : ValidContext sp context)
    {c : Ctx} (hc : contextManager sp context = .ok c) {z2 z : Vec} (g1 : ObjDomain sp.kinds z2)
    (hz : ObjDomain sp.kinds z) (g2 : HasContext sp context z2) (hzc : HasContext sp context z)
    (hfz : keep (freePos c) 0 z2 = keep (freePos c) 0 z) : z2 = z := by
  obtain ⟨vs, es, hcok⟩ := contextManager_ok hc
  have hlz : z2.length = z.length := by rw [← g1.length_eq, ← hz.length_eq]
  have : List.Forall₂ (· = ·) z2 z := by
    refine forall₂_of_keep (freePos c) _ _ 0 hlz (hfz ▸ List.forall₂_same.2 fun _ _ => rfl) ?_
    intro j a b hp ha' hb'
    simp only [freePos, Nat.zero_add, decide_eq_false_iff_not, not_not, hcok.obj,
      List.mem_map] at hp
    obtain ⟨v, hv, rfl⟩ := hp
    obtain ⟨nv, hnv, e, _, hf, _⟩ :=
      forall₂_zip_iff (hcok.values (validContext_good hg).2) hcok.len hv
    have q1 := g2 nv hnv v hf
    have q2 := hzc nv hnv v hf
    rw [ha'] at q1; rw [hb'] at q2
    injection q1 with q1
    injection q2 with q2
    rw [q1, q2]
  exact List.forall₂_eq_eq_eq ▸ this

theorem initialDesign_domain {config : List Desc} {cs : Option (List ConstrDict)} {sp : Space}
    (h : designSpace config cs = .ok sp) (hb : sp.hasBandit = false)
    (hs : ∀ k ∈ sp.kinds, Samplable k) {o : DesignOracle} (ho : UnitOracle o) {t : String}
    (ht : t ∈ ["random", "sobol"]) {n : Nat} {m : Mat} (hm : initialDesign t sp o n = .ok m) :
    m.length = n ∧ ∀ row ∈ m, ObjDomain sp.kinds row := by
  rw [space_kinds_eq h] at *
  simp only [List.mem_cons, List.not_mem_nil, or_false] at ht
  cases cs with
  | none =>
    rcases ht with rfl | rfl
    · obtain ⟨m', h1, h2, h3⟩ := C15_random_design h hb hs o ho.draws n
      rw [hm] at h1; cases h1; exact ⟨h2, h3⟩
    · obtain ⟨m', h1, h2, h3, -⟩ := C17_latin_sobol h hb hs o ho.lhs ho.sobol n ("sobol", o.sobol) (by simp)
      rw [hm] at h1; cases h1; exact ⟨h2, h3⟩
  | some cs =>
    rcases ht with rfl | rfl
    · obtain ⟨h2, h3⟩ := C16_constrained_design h hb hs o ho.draws n m hm
      exact ⟨h2, fun row hr => (h3 row hr).1⟩
    · rw [C17_constraints_refused h o n "sobol" (by simp)] at hm
      cases hm

theorem initialDesign_total {config : List Desc} {sp : Space}
    (h : designSpace config none = .ok sp) (hb : sp.hasBandit = false)
    (hs : ∀ k ∈ sp.kinds, Samplable k) {o : DesignOracle} (ho : UnitOracle o) {t : String}
    (ht : t ∈ ["random", "sobol"]) (n : Nat) : ∃ m, initialDesign t sp o n = .ok m := by
  rw [space_kinds_eq h] at *
  simp only [List.mem_cons, List.not_mem_nil, or_false] at ht
  rcases ht with rfl | rfl
  · obtain ⟨m', h1, -⟩ := C15_random_design h hb hs o ho.draws n
    exact ⟨m', h1⟩
  · obtain ⟨m', h1, -⟩ := C17_latin_sobol h hb hs o ho.lhs ho.sobol n ("sobol", o.sobol) (by simp)
    exact ⟨m', h1⟩

theorem sortedUnique_perm (X : Mat) : (sortedUnique X).Perm X.dedup := List.perm_insertionSort _ _

theorem mem_sortedUnique {X : Mat} {r : Vec} : r ∈ sortedUnique X ↔ r ∈ X := by
  rw [(sortedUnique_perm X).mem_iff, List.mem_dedup]

theorem sortedUnique_nodup (X : Mat) : (sortedUnique X).Nodup :=
  (sortedUnique_perm X).nodup_iff.2 (List.nodup_dedup X)

theorem sortedUnique_pairwise (X : Mat) : (sortedUnique X).Pairwise (· < ·) := by
  have h1 : (sortedUnique X).Pairwise (· ≤ ·) := List.pairwise_insertionSort _ _
  have h2 := sortedUnique_nodup X
  exact (h1.and h2).imp (fun h => lt_of_le_of_ne h.1 h.2)

theorem anchorSpace_descs {config : List Desc} {cs : Option (List ConstrDict)} {sp : Space}
    (h : designSpace config cs = .ok sp) (hb : sp.hasBandit = false)
    {context : Option Context} {c : Ctx} (hc : contextManager sp context = .ok c) :
    ∃ ds sp', mapE (npGet sp.configExpanded) c.nocontextIndexObj = .ok ds ∧
      anchorSpace sp (some c) = .ok (sp', some c) ∧ designSpace ds sp.constraints = .ok sp' ∧
      sp'.hasBandit = false ∧ sp'.kinds = keep (freePos c) 0 sp.kinds := by
  obtain ⟨vs, es, hcok⟩ := contextManager_ok hc
  have hgood := expandConfig_good h hb
  obtain ⟨sp', h1, h2, h3, h4⟩ := designSpace_of_good (keep_forall₂ (freePos c) hgood 0) sp.constraints
  have : mapE (npGet sp.configExpanded) c.nocontextIndexObj = .ok (keep (freePos c) 0 sp.configExpanded) := by
    rw [hcok.freeObj]
    exact mapE_npGet_filter_range (freePos c) _
  exact ⟨_, sp', this, by simp [anchorSpace, hb, this, h1], h1, h3, h2⟩

theorem anchorSpace_ok {config : List Desc} {cs : Option (List ConstrDict)} {sp : Space}
    (h : designSpace config cs = .ok sp) (hb : sp.hasBandit = false)
    {context : Option Context} {c : Ctx} (hc : contextManager sp context = .ok c) :
    ∃ ds sp', anchorSpace sp (some c) = .ok (sp', some c) ∧ designSpace ds sp.constraints = .ok sp' ∧
      sp'.hasBandit = false ∧ sp'.kinds = keep (freePos c) 0 sp.kinds := by
  obtain ⟨ds, sp', -, h1⟩ := anchorSpace_descs h hb hc
  exact ⟨ds, sp', h1⟩

theorem zipInputs_encode {config : List Desc} {cs : Option (List ConstrDict)} {sp : Space}
    (h : designSpace config cs = .ok sp) (hb : sp.hasBandit = false) {z : Vec}
    (hz : ObjDomain sp.kinds z) : sp.zipInputs [encodeRow sp.kinds z] = .ok [z] := by
  have hk := space_kinds_eq h
  have := (C01_zip_unzip h hb [z] (by simp)
    (by simpa using encodable_of_objDomain (hk ▸ hz))).2
  simpa [← hk] using this

theorem isDup_encode {config : List Desc} {cs : Option (List ConstrDict)} {sp : Space}
    (h : designSpace config cs = .ok sp) (hb : sp.hasBandit = false) (dup : Option DupMgr) {z : Vec}
    (hz : ObjDomain sp.kinds z) :
    isDup dup sp (encodeRow sp.kinds z) = .ok (decide (InDup dup z)) := by
  cases dup with
  | none => simp [isDup, InDup]
  | some dm =>
    have : InDup (some dm) z ↔ z ∈ dm.points := by simp [InDup]
    simp [isDup, DupMgr.isUnzippedDup, zipInputs_encode h hb hz, DupMgr.isZippedDup, this]

theorem nonDuplicates_map {α : Type} (g : α → Vec) (p : α → Bool) (Z : List α) :
    nonDuplicates (Z.map g) (Z.map p) = (Z.filter (fun z => !p z)).map g := by
  induction Z with
  | nil => rfl
  | cons z Z ih =>
    simp only [nonDuplicates, List.map_cons, List.zip_cons_cons, List.filterMap_cons,
      List.filter_cons] at ih ⊢
    cases hp : p z <;> simp [ih]

/-- The configurations that are sampled, in both representations. -/
theorem anchorSamples_spec {config : List Desc} {cs : Option (List ConstrDict)} {sp : Space}
    (h : designSpace config cs = .ok sp) (hb : sp.hasBandit = false)
    (hs : ∀ k ∈ sp.kinds, Samplable k)
    {context : Option Context} (hg : ValidContext sp context) {c : Ctx}
    (hc : contextManager sp context = .ok c) {o : DesignOracle} (ho : UnitOracle o) {t : String}
    (ht : t ∈ ["random", "sobol"]) {n : Nat} (hn : 0 < n) (unique : Bool) :
    ∃ ds sp', designSpace ds sp.constraints = .ok sp' ∧ sp'.hasBandit = false ∧ sp'.kinds = keep (freePos c) 0 sp.kinds ∧
      ((∃ e, initialDesign t sp' o n = .error e ∧
          anchorSamples sp (some c) unique t n o = .error e ∧ cs ≠ none ∧ ¬ SamplesFound sp c t n o) ∨
        ∃ m Z, initialDesign t sp' o n = .ok m ∧ m.length = n ∧
          anchorSamples sp (some c) unique t n o = .ok (Z.map (encodeRow sp.kinds)) ∧
          List.Forall₂ (fun r z => ObjDomain sp.kinds z ∧ HasContext sp context z ∧
            keep (freePos c) 0 z = r) (if unique then sortedUnique m else m) Z) := by
  obtain ⟨ds, sp', h0, h1, h2, h3, h4⟩ := anchorSpace_descs h hb hc
  refine ⟨ds, sp', h2, h3, h4, ?_⟩
  have hs' : ∀ k ∈ sp'.kinds, Samplable k := by
    rw [h4]; exact fun k hk => hs k ((keep_sublist _ _ _).subset hk)
  cases hd : initialDesign t sp' o n with
  | error e =>
    left
    refine ⟨e, rfl, by simp [anchorSamples, h1, hd], ?_, ?_⟩
    · rintro rfl
      obtain ⟨_, _, _, _, _, _, hcs⟩ := designSpace_ok h
      rw [hcs] at h2
      obtain ⟨m, hm⟩ := initialDesign_total h2 h3 hs' ho ht n
      rw [hd] at hm; cases hm
    · rintro ⟨ds', sp'', m, g1, g2, g3⟩
      rw [h0] at g1
      cases g1
      rw [h2] at g2
      cases g2
      rw [hd] at g3
      cases g3
  | ok m =>
    right
    obtain ⟨hml, hmd⟩ := initialDesign_domain h2 h3 hs' ho ht hd
    have hmne : m ≠ [] := by rintro rfl; simp at hml; omega
    set m' := if unique then sortedUnique m else m with hm'
    have hm'ne : m' ≠ [] := by
      obtain ⟨r, hr⟩ := List.exists_mem_of_ne_nil m hmne
      have : r ∈ m' := by
        rw [hm']; split_ifs
        · exact mem_sortedUnique.2 hr
        · exact hr
      exact List.ne_nil_of_mem this
    have hm'd : ∀ row ∈ m', ObjDomain sp'.kinds row := by
      intro row hr
      rw [hm'] at hr
      split_ifs at hr
      · exact hmd row (mem_sortedUnique.1 hr)
      · exact hmd row hr
    have hk' := space_kinds_eq h2
    have hunz : sp'.unzipInputs m' = .ok (m'.map (encodeRow sp'.kinds)) := by
      rw [hk'] at hm'd ⊢
      exact (C01_zip_unzip h2 h3 m' hm'ne (fun r hr => encodable_of_objDomain (hm'd r hr))).1
    have hX1 : (if unique then (if m = [] then (.error .valueError : Py Mat) else
        sp'.unzipInputs (sortedUnique m)) else sp'.unzipInputs m) = .ok (m'.map (encodeRow sp'.kinds)) := by
      rw [← hunz, hm']
      cases unique <;> simp [hmne]
    have hZ : ∃ Z : Mat, List.Forall₂ (fun r z => ObjDomain sp.kinds z ∧ HasContext sp context z ∧
            keep (freePos c) 0 z = r) m' Z ∧
          mapE (addContext (some c) sp) (m'.map (encodeRow sp'.kinds))
            = .ok (Z.map (encodeRow sp.kinds)) := by
      clear hX1 hunz hm'ne hm'
      clear_value m'
      induction m' with
      | nil => exact ⟨[], .nil, rfl⟩
      | cons r m' ih =>
        obtain ⟨Z, hZ1, hZ2⟩ := ih (fun row hr => hm'd row (by simp [hr]))
        have hr := hm'd r (by simp)
        rw [h4] at hr
        obtain ⟨z, e1, e2, e3, e4⟩ := expand_encode h hb hg hc hr
        refine ⟨z :: Z, .cons ⟨e2, e3, e4⟩ hZ1, ?_⟩
        rw [← h4] at e1
        simp only [List.map_cons, mapE, addContext, e1]
        rw [hZ2]
    obtain ⟨Z, hZ1, hZ2⟩ := hZ
    refine ⟨m, Z, rfl, hml, ?_, hZ1⟩
    simp only [anchorSamples, h1, hd, hX1, hZ2]

theorem mapE_npGet_total {α : Type} (l : List α) (idx : List Nat) (h : ∀ i ∈ idx, i < l.length) :
    ∃ r, mapE (npGet l) idx = .ok r ∧ r.map some = idx.map (fun i => l[i]?) := by
  induction idx with
  | nil => exact ⟨[], rfl, rfl⟩
  | cons i idx ih =>
    obtain ⟨r, h1, h2⟩ := ih (fun j hj => h j (by simp [hj]))
    have hi := h i (by simp)
    refine ⟨l[i] :: r, ?_, by simp [h2, hi]⟩
    rw [mapE_cons_ok]
    exact ⟨_, _, npGet_ok.2 (List.getElem?_eq_getElem hi), h1, rfl⟩

/-- Result of `get` once the samples are known. -/
theorem anchorPoints_of_samples {config : List Desc} {cs : Option (List ConstrDict)} {sp : Space}
    (h : designSpace config cs = .ok sp) (hb : sp.hasBandit = false) {ctx : Option Ctx}
    (dup : Option DupMgr) {unique : Bool} {t : String} {n numAnchor : Nat} {o : DesignOracle}
    {score : Mat → Py (List ℚ)} {argsort : List ℚ → List Nat} (ha : IsArgsort argsort)
    {Z : Mat} (hX : anchorSamples sp ctx unique t n o = .ok (Z.map (encodeRow sp.kinds)))
    (hZ : ∀ z ∈ Z, ObjDomain sp.kinds z) (fresh : Mat)
    (hf : fresh = Z.filter (fun z => !decide (InDup dup z))) :
    (fresh = [] → anchorPoints sp ctx dup unique t n numAnchor o score argsort = .error .fullyExplored) ∧
    (fresh ≠ [] → ∀ e, score (fresh.map (encodeRow sp.kinds)) = .error e →
      anchorPoints sp ctx dup unique t n numAnchor o score argsort = .error e) ∧
    (fresh ≠ [] → ∀ s, score (fresh.map (encodeRow sp.kinds)) = .ok s → s.length = fresh.length →
      ∃ A : Mat, anchorPoints sp ctx dup unique t n numAnchor o score argsort
          = .ok (A.map (encodeRow sp.kinds)) ∧
        A.map some = ((argsort s).take numAnchor).map (fun i => fresh[i]?) ∧
        A.length = min numAnchor fresh.length) := by
  have hfl : mapE (isDup dup sp) (Z.map (encodeRow sp.kinds))
      = .ok (Z.map fun z => decide (InDup dup z)) := by
    clear hX hf
    induction Z with
    | nil => rfl
    | cons z Z ih =>
      have h1 := isDup_encode h hb dup (hZ z (by simp))
      have h2 := ih (fun z hz => hZ z (by simp [hz]))
      simp only [List.map_cons, mapE, h1]
      rw [h2]
  have hnd : nonDuplicates (Z.map (encodeRow sp.kinds)) (Z.map fun z => decide (InDup dup z))
      = fresh.map (encodeRow sp.kinds) := by rw [hf]; exact nonDuplicates_map _ _ _
  refine ⟨?_, ?_, ?_⟩
  · intro hfe
    simp only [anchorPoints, hX, hfl, hnd]
    simp [hfe]
  · intro hfe e he
    simp only [anchorPoints, hX, hfl, hnd, he]
    simp [hfe]
  · intro hfe s hsc hsl
    have hperm := (ha s).1
    have hlen : (argsort s).length = s.length := by simpa using hperm.length_eq
    have hlt : ∀ i ∈ (argsort s).take numAnchor, i < fresh.length := by
      intro i hi
      have := hperm.mem_iff.1 (List.mem_of_mem_take hi)
      simp at this; omega
    obtain ⟨A, hA1, hA2⟩ := mapE_npGet_total fresh _ hlt
    have hAl : A.length = min numAnchor fresh.length := by
      have := congrArg List.length hA2
      simp only [List.length_map, List.length_take, hlen, hsl] at this
      exact this
    refine ⟨A, ?_, hA2, hAl⟩
    have htake : (argsort s).take (min s.length numAnchor) = (argsort s).take numAnchor := by
      rcases Nat.le_total s.length numAnchor with h | h
      · rw [min_eq_left h, List.take_of_length_le (by omega), List.take_of_length_le (by omega)]
      · rw [min_eq_right h]
    have hget : mapE (npGet (fresh.map (encodeRow sp.kinds))) ((argsort s).take numAnchor)
        = .ok (A.map (encodeRow sp.kinds)) := by
      rw [mapE_eq_ok] at hA1 ⊢
      clear hA2 hlt hAl htake
      generalize (argsort s).take numAnchor = idx at *
      induction hA1 with
      | nil => exact .nil
      | cons h1 _ ih =>
        refine .cons ?_ ih
        rw [npGet_ok] at h1 ⊢
        simp [h1]
    simp only [anchorPoints, hX, hfl, hnd, hsc]
    rw [htake, hget]
    simp [hfe]

end GPyOpt
