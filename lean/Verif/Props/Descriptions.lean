import Verif.Model.Descriptions
import Verif.Model.Anchor
import Verif.Lemmas.Py

/-!
# C145: problem descriptions belong to the caller

Creating a space does not change the descriptions, and what the caller does to them later does not change the space. True for
the variables; false for the constraints and for the sampling of anchor points in a context.
-/

namespace GPyOpt.Props

open GPyOpt

/-! ## Allocation -/

/-- `h'` has the objects of `h`, and possibly more. -/
structure Extends (h h' : PMem) : Prop where
  next : h.next ≤ h'.next
  get : ∀ a, a < h.next → h'.get a = h.get a

theorem Extends.refl (h : PMem) : Extends h h := ⟨le_rfl, fun _ _ => rfl⟩

theorem Extends.trans {h1 h2 h3 : PMem} (a : Extends h1 h2) (b : Extends h2 h3) : Extends h1 h3 :=
  ⟨a.next.trans b.next, fun x hx => (b.get x (hx.trans_le a.next)).trans (a.get x hx)⟩

theorem alloc_extends (h : PMem) (c : PCell) : Extends h (h.alloc c).1 :=
  ⟨Nat.le_succ _, fun a ha => by simp [PMem.alloc, Nat.ne_of_lt ha]⟩

theorem deepcopy_extends (h : PMem) (a : Nat) : Extends h (h.deepcopy a).1 := by
  unfold PMem.deepcopy
  split
  · split
    · exact alloc_extends _ _
    · exact (alloc_extends _ _).trans (alloc_extends _ _)
  · exact alloc_extends _ _

/-- A descriptor, all of whose objects are at addresses between two bounds. -/
def DescIn (h : PMem) (lo hi a : Nat) (v : Desc) : Prop :=
  lo ≤ a ∧ a < hi ∧ ∃ c, h.get a = .desc c ∧ c.value h = v ∧
    ∀ d, c.domain = some d → lo ≤ d ∧ d < hi ∧ ∃ x, h.get d = .dom x

theorem DescIn.desc {h : PMem} {lo hi a : Nat} {v : Desc} (hd : DescIn h lo hi a v) : h.desc a = v := by
  obtain ⟨_, _, c, h1, h2, _⟩ := hd
  unfold PMem.desc
  rw [h1]
  exact h2

/-- A descriptor depends only on its objects. -/
theorem DescIn.congr {h h' : PMem} {lo hi a : Nat} {v : Desc} (hd : DescIn h lo hi a v)
    (hg : ∀ b, lo ≤ b → b < hi → h'.get b = h.get b) : DescIn h' lo hi a v := by
  obtain ⟨h1, h2, c, h3, h4, h5⟩ := hd
  refine ⟨h1, h2, c, (hg a h1 h2).trans h3, ?_, fun d hd => ?_⟩
  · rw [← h4]
    unfold DescCell.value
    congr 1
    cases hd : c.domain with
    | none => rfl
    | some d =>
      obtain ⟨k1, k2, x, k3⟩ := h5 d hd
      simp [PMem.dom, hg d k1 k2, k3]
  · obtain ⟨k1, k2, x, k3⟩ := h5 d hd
    exact ⟨k1, k2, x, (hg d k1 k2).trans k3⟩

theorem DescIn.mono {h : PMem} {lo hi lo' hi' a : Nat} {v : Desc} (hd : DescIn h lo hi a v) (h1 : lo' ≤ lo)
    (h2 : hi ≤ hi') : DescIn h lo' hi' a v := by
  obtain ⟨k1, k2, c, k3, k4, k5⟩ := hd
  exact ⟨h1.trans k1, k2.trans_le h2, c, k3, k4, fun d hd => ⟨h1.trans (k5 d hd).1, (k5 d hd).2.1.trans_le h2, (k5 d hd).2.2⟩⟩

theorem deepcopy_spec {h : PMem} {a : Nat} {v : Desc} (hd : DescIn h 0 h.next a v) :
    DescIn (h.deepcopy a).1 h.next (h.deepcopy a).1.next (h.deepcopy a).2 v := by
  obtain ⟨-, h2, c, h3, h4, h5⟩ := hd
  unfold PMem.deepcopy
  rw [h3]
  simp only
  cases hc : c.domain with
  | none =>
    refine ⟨le_rfl, by simp [PMem.alloc], c, by simp [PMem.alloc], ?_, by simp [hc]⟩
    rw [← h4]
    simp [DescCell.value, hc]
  | some d =>
    simp only
    refine ⟨by simp [PMem.alloc], by simp [PMem.alloc], { c with domain := some h.next }, by simp [PMem.alloc], ?_, ?_⟩
    · rw [← h4]
      simp [DescCell.value, hc, PMem.dom, PMem.alloc]
    · intro d' hd'
      simp only [Option.some.injEq] at hd'
      subst hd'
      exact ⟨le_rfl, by simp only [PMem.alloc]; omega, h.dom d, by simp [PMem.alloc]⟩

/-- The private copies are new objects with the same values. -/
theorem deepcopies_spec (lo : Nat) (as : List Nat) (vs : List Desc) (h : PMem) (hlo : lo ≤ h.next)
    (hd : List.Forall₂ (DescIn h 0 h.next) as vs) :
    Extends h (h.deepcopies as).1 ∧
      List.Forall₂ (DescIn (h.deepcopies as).1 lo (h.deepcopies as).1.next) (h.deepcopies as).2 vs := by
  induction as generalizing h vs with
  | nil =>
    cases hd
    exact ⟨Extends.refl h, .nil⟩
  | cons a as ih =>
    cases hd with
    | @cons _ v _ vs h1 hs =>
      have he := deepcopy_extends h a
      have hs' : List.Forall₂ (DescIn (h.deepcopy a).1 0 (h.deepcopy a).1.next) as vs :=
        hs.imp fun b w hb => (hb.congr fun c _ hc => he.get c hc).mono le_rfl he.next
      obtain ⟨e2, f2⟩ := ih vs _ (hlo.trans he.next) hs'
      refine ⟨he.trans e2, .cons ?_ f2⟩
      exact (((deepcopy_spec h1).mono hlo le_rfl).congr fun b _ hb => e2.get b hb).mono le_rfl e2.next

/-- New dictionaries are where they were put. -/
theorem allocs_spec (cs : List DescCell) (h : PMem) :
    Extends h (h.allocs cs).1 ∧
      List.Forall₂ (fun b c => h.next ≤ b ∧ b < (h.allocs cs).1.next ∧ (h.allocs cs).1.get b = .desc c)
        (h.allocs cs).2 cs := by
  induction cs generalizing h with
  | nil => exact ⟨Extends.refl h, .nil⟩
  | cons c cs ih =>
    have he := alloc_extends h (.desc c)
    obtain ⟨e2, f2⟩ := ih (h.alloc (.desc c)).1
    have hb : h.next < (h.alloc (.desc c)).1.next := by simp [PMem.alloc]
    refine ⟨he.trans e2, .cons ⟨le_rfl, hb.trans_le e2.next, ?_⟩ (f2.imp fun b c' hbc => ⟨?_, hbc.2⟩)⟩
    · show (((h.alloc (.desc c)).1.allocs cs).1).get h.next = _
      rw [e2.get _ hb]
      simp [PMem.alloc]
    · exact he.next.trans hbc.1

/-! ## The loop over the constraints -/

/-- What the loop over the constraints does to an object. -/
def fixCell : PCell → PCell
  | .constr c => .constr (fixConstr c)
  | c => c

theorem fixConstr_idem (c : ConstrDict) : fixConstr (fixConstr c) = fixConstr c := by
  unfold fixConstr
  cases h : c.constrain <;> simp [h]

theorem fixCell_idem (c : PCell) : fixCell (fixCell c) = fixCell c := by
  cases c <;> simp [fixCell, fixConstr_idem]

theorem fix_spec (as : List Nat) (h : PMem) :
    (h.fix as).next = h.next ∧ ∀ b, (h.fix as).get b = if b ∈ as then fixCell (h.get b) else h.get b := by
  induction as generalizing h with
  | nil => exact ⟨rfl, fun b => by simp [PMem.fix]⟩
  | cons a as ih =>
    -- in every case the object at `a` is replaced by its fixed version
    have key : ∃ h1 : PMem, h.fix (a :: as) = h1.fix as ∧ h1.next = h.next ∧
        ∀ b, h1.get b = if b = a then fixCell (h.get b) else h.get b := by
      rw [PMem.fix.eq_def]
      simp only
      split
      · next c hc =>
        split
        · next f hf =>
          refine ⟨_, rfl, rfl, fun b => ?_⟩
          by_cases hb : b = a
          · subst hb
            simp [PMem.write, hc, fixCell]
          · simp [PMem.write, hb]
        · next hf =>
          refine ⟨_, rfl, rfl, fun b => ?_⟩
          split
          · next hb => rw [hb, hc]; simp [fixCell, fixConstr, hf]
          · rfl
      · next hc =>
        refine ⟨_, rfl, rfl, fun b => ?_⟩
        split
        · next hb =>
          rw [hb]
          cases hx : h.get a with
          | constr c => exact absurd hx (hc c)
          | _ => rfl
        · rfl
    obtain ⟨h1, e1, e2, e3⟩ := key
    rw [e1]
    obtain ⟨i1, i2⟩ := ih h1
    refine ⟨i1.trans e2, fun b => ?_⟩
    rw [i2, e3]
    by_cases hb : b = a
    · subst hb
      simp [fixCell_idem]
    · simp [hb]

/-! ## Creating a space -/

/-- `expandDesc` in memory. -/
theorem expand_value (h : PMem) (c : DescCell) {l : List Desc} (hl : expandDesc (c.value h) = .ok l) :
    c.expand.map (DescCell.value h) = l := by
  unfold expandDesc DescCell.value at hl
  unfold DescCell.expand
  cases hd : c.dimensionality with
  | none => rw [hd] at hl; simp only [Except.ok.injEq] at hl; rw [← hl]; simp [DescCell.value, hd]
  | some n =>
    rw [hd] at hl
    cases n with
    | zero => simp only [Except.ok.injEq] at hl; rw [← hl]; rfl
    | succ n =>
      cases hn : c.name with
      | none => rw [hn] at hl; simp at hl
      | some s =>
        rw [hn] at hl
        simp only [Except.ok.injEq] at hl
        rw [← hl]
        simp [DescCell.value]

theorem expand_domain {c c' : DescCell} (h : c' ∈ c.expand) : c'.domain = c.domain := by
  unfold DescCell.expand at h
  split at h
  · rw [List.mem_singleton.1 h]
  · obtain ⟨k, _, rfl⟩ := List.mem_map.1 h
    rfl

/-- The descriptors of a description. -/
theorem describes_forall {h : PMem} {config : Nat} {cons : Option Nat} (hd : h.Describes config cons) :
    List.Forall₂ (DescIn h 0 h.next) (h.list config) ((h.list config).map h.desc) := by
  rw [List.forall₂_map_right_iff]
  refine List.forall₂_same.2 fun a ha => ?_
  obtain ⟨h1, c, h2, h3⟩ := hd.descs a ha
  exact ⟨Nat.zero_le _, h1, c, h2, by simp [PMem.desc, h2], fun d hd => ⟨Nat.zero_le _, h3 d hd⟩⟩

/-- The memory after a space was created, and where its objects are. -/
theorem createSpace_spec {h h' : PMem} {config : Nat} {cons : Option Nat} {sp : MSpace} (hd : h.Describes config cons)
    (hc : createSpace h config cons = (h', .ok sp)) :
    sp.config = config ∧ sp.constraints = cons ∧ h.next ≤ h'.next ∧
    (∀ a, a < h.next → h'.get a = if (∃ l, cons = some l ∧ a ∈ h.list l) then fixCell (h.get a) else h.get a) ∧
    List.Forall₂ (DescIn h' h.next h'.next) sp.vars ((h.list config).map h.desc) ∧
    ∃ cs, List.Forall₂ (fun b c => h.next ≤ b ∧ b < h'.next ∧ h'.get b = .desc c) sp.expanded cs ∧
      (∀ c ∈ cs, ∀ d, c.domain = some d → d < h.next ∧ ∃ x, h.get d = .dom x) ∧
      expandConfig ((h.list config).map h.desc) = .ok (cs.map (DescCell.value h)) := by
  unfold createSpace at hc
  rcases hds : designSpace ((h.list config).map h.desc) none with e | S
  · rw [hds] at hc; simp at hc
  rw [hds] at hc
  simp only [Prod.mk.injEq, Except.ok.injEq] at hc
  obtain ⟨hc1, hc2⟩ := hc
  have hdf := describes_forall hd
  obtain ⟨e1, f1⟩ := deepcopies_spec h.next _ _ h le_rfl hdf
  set h1 := (h.deepcopies (h.list config)).1
  have hl1 : h1.list config = h.list config := by unfold PMem.list; rw [e1.get _ hd.config_lt]
  obtain ⟨e2, f2⟩ := allocs_spec ((h1.cells (h1.list config)).flatMap DescCell.expand) h1
  set h2 := (h1.allocs ((h1.cells (h1.list config)).flatMap DescCell.expand)).1
  have e12 := e1.trans e2
  -- the dictionaries of the caller
  have hcells : ∀ as : List Nat, (∀ a ∈ as, a < h.next ∧ ∃ c, h.get a = .desc c ∧ ∀ d, c.domain = some d → d < h.next ∧
      ∃ v, h.get d = .dom v) → (h1.cells as).map (DescCell.value h) = as.map h.desc ∧
      ∀ c ∈ h1.cells as, ∀ d, c.domain = some d → d < h.next ∧ ∃ x, h.get d = .dom x := by
    intro as
    induction as with
    | nil => exact fun _ => ⟨rfl, by simp [PMem.cells]⟩
    | cons a as ih =>
      intro has
      obtain ⟨k1, k2⟩ := ih fun b hb => has b (by simp [hb])
      obtain ⟨m1, c, m2, m3⟩ := has a (by simp)
      have hh : h1.cells (a :: as) = c :: h1.cells as := by
        unfold PMem.cells
        rw [List.filterMap_cons, e1.get a m1, m2]
      rw [hh]
      refine ⟨by simp [k1, PMem.desc, m2], ?_⟩
      intro c' hc'
      rcases List.mem_cons.1 hc' with rfl | hc'
      · exact m3
      · exact k2 c' hc'
  obtain ⟨hcv, hcd⟩ := hcells _ hd.descs
  have hexp : ∃ X, expandConfig ((h.list config).map h.desc) = .ok X := by
    unfold designSpace at hds
    split at hds
    · simp at hds
    · split at hds
      · simp at hds
      · next X hX => exact ⟨X, hX⟩
  obtain ⟨X, hX⟩ := hexp
  have hXv : ∀ (cs : List DescCell) (X : List Desc), expandConfig (cs.map (DescCell.value h)) = .ok X →
      X = (cs.flatMap DescCell.expand).map (DescCell.value h) := by
    intro cs
    induction cs with
    | nil => intro X hX; simp [expandConfig, Except.map] at hX; simp [← hX]
    | cons c cs ih =>
      intro X hX
      unfold expandConfig at hX
      rcases hm : mapE expandDesc ((c :: cs).map (DescCell.value h)) with e | r
      · rw [hm] at hX; simp [Except.map] at hX
      · rw [hm] at hX
        simp only [Except.map, Except.ok.injEq] at hX
        rw [List.map_cons, mapE_cons_ok] at hm
        obtain ⟨b, bs, hb, hbs, rfl⟩ := hm
        have := ih bs.flatten (by unfold expandConfig; rw [hbs]; rfl)
        rw [← hX, List.flatten_cons, List.flatMap_cons, List.map_append, expand_value h c hb, this]
  have hf : ∃ h3 : PMem, h' = h3 ∧ h3.next = h2.next ∧ ∀ b, h3.get b =
      if (∃ l, cons = some l ∧ b ∈ h.list l) then fixCell (h2.get b) else h2.get b := by
    refine ⟨_, rfl, ?_, ?_⟩
    · rw [← hc1]
      cases cons with
      | none => rfl
      | some l => exact (fix_spec _ _).1
    · intro b
      rw [← hc1]
      cases hco : cons with
      | none => simp
      | some l =>
        have : h2.list l = h.list l := by unfold PMem.list; rw [e12.get _ (hd.cons l hco).1]
        simp only
        rw [(fix_spec _ _).2, this]
        simp
  obtain ⟨h3, rfl, hn3, hg3⟩ := hf
  have hge : ∀ b, h.next ≤ b → h'.get b = h2.get b := by
    intro b hb
    rw [hg3, if_neg]
    rintro ⟨l, hl, hbl⟩
    exact absurd ((hd.cons l hl).2.2 b hbl).1 (not_lt.2 hb)
  rw [← hc2]
  refine ⟨rfl, rfl, by rw [hn3]; exact e12.next, ?_, ?_, (h1.cells (h1.list config)).flatMap DescCell.expand, ?_, ?_, ?_⟩
  · intro a ha
    rw [hg3, e12.get a ha]
  · exact f1.imp fun b v hb => ((hb.congr fun c h1c h2c => (hge c h1c).trans (e2.get c h2c)).mono le_rfl
      (by rw [hn3]; exact e2.next))
  · exact f2.imp fun b c hb => ⟨e1.next.trans hb.1, by rw [hn3]; exact hb.2.1, (hge b (e1.next.trans hb.1)).trans hb.2.2⟩
  · intro c hc d hcd'
    rw [hl1] at hc
    obtain ⟨c0, hc0, hcc⟩ := List.mem_flatMap.1 hc
    exact hcd c0 hc0 d (by rw [← expand_domain hcc]; exact hcd')
  · rw [hl1, ← hXv _ X (by rw [hcv]; exact hX)]
    exact hX

theorem forall₂_map_eq {α β γ : Type} {R : α → β → Prop} {f : α → γ} {g : β → γ} (h : ∀ a b, R a b → f a = g b)
    {l : List α} {m : List β} (hl : List.Forall₂ R l m) : l.map f = m.map g := by
  induction hl with
  | nil => rfl
  | cons hab _ ih => simp [h _ _ hab, ih]

theorem value_congr {h h' : PMem} {c : DescCell} (hc : ∀ d, c.domain = some d → h'.get d = h.get d) :
    c.value h' = c.value h := by
  unfold DescCell.value
  congr 1
  cases hd : c.domain with
  | none => rfl
  | some d => simp [PMem.dom, hc d hd]

/-- **C145.** Creating a space changes nothing in memory except dictionaries of constraints with the legacy key, whose key
`constraint` is set. -/
theorem C145_creation_effect {h h' : PMem} {config : Nat} {cons : Option Nat} {sp : MSpace} (hd : h.Describes config cons)
    (hc : createSpace h config cons = (h', .ok sp)) (a : Nat) (ha : a < h.next) :
    h'.get a = h.get a ∨ ∃ l c f, cons = some l ∧ a ∈ h.list l ∧ h.get a = .constr c ∧ c.constrain = some f ∧
      h'.get a = .constr { c with constraint := some f } := by
  obtain ⟨-, -, -, hg, -⟩ := createSpace_spec hd hc
  rw [hg a ha]
  split
  · next hl =>
    obtain ⟨l, hl, hal⟩ := hl
    cases hx : h.get a with
    | constr c =>
      cases hf : c.constrain with
      | none => left; simp [fixCell, fixConstr, hf]
      | some f => exact .inr ⟨l, c, f, hl, hal, rfl, hf, by simp [fixCell, fixConstr, hf]⟩
    | _ => exact .inl rfl
  · exact .inl rfl

/-- **C145.** If no dictionary has the legacy key, creating a space does not change the objects of the caller at all. -/
theorem C145_creation_keeps {h h' : PMem} {config : Nat} {cons : Option Nat} {sp : MSpace} (hd : h.Describes config cons)
    (hc : createSpace h config cons = (h', .ok sp))
    (hk : ∀ l, cons = some l → ∀ a ∈ h.list l, (h.constr a).constrain = none) (a : Nat) (ha : a < h.next) :
    h'.get a = h.get a := by
  rcases C145_creation_effect hd hc a ha with h1 | ⟨l, c, f, hl, hal, hx, hf, -⟩
  · exact h1
  · have := hk l hl a hal
    simp only [PMem.constr, hx, hf] at this
    simp at this

/-- Objects other than dictionaries of constraints are not changed. -/
theorem creation_keeps_cell {h h' : PMem} {config : Nat} {cons : Option Nat} {sp : MSpace} (hd : h.Describes config cons)
    (hc : createSpace h config cons = (h', .ok sp)) {a : Nat} (ha : a < h.next) (hx : ∀ c, h.get a ≠ .constr c) :
    h'.get a = h.get a := by
  rcases C145_creation_effect hd hc a ha with h1 | ⟨l, c, f, -, -, hx', -⟩
  · exact h1
  · exact absurd hx' (hx c)

/-- **C145.** The space that is created is the one that the descriptions mean. -/
theorem C145_meaning {h h' : PMem} {config : Nat} {cons : Option Nat} {sp : MSpace} (hd : h.Describes config cons)
    (hc : createSpace h config cons = (h', .ok sp)) :
    sp.view h' = designSpace ((h.list config).map h.desc) (cons.map h.constrs) := by
  obtain ⟨h1, h2, h3, hg, hv, cs, hx, hcs, he⟩ := createSpace_spec hd hc
  have hvars : sp.vars.map h'.desc = (h.list config).map h.desc := by
    have := forall₂_map_eq (f := h'.desc) (g := id) (fun _ _ hb => hb.desc) hv
    simpa using this
  have hconf : (h'.list config).map h'.desc = (h.list config).map h.desc := by
    obtain ⟨l, hl⟩ := hd.config_list
    have hl' : h'.list config = h.list config := by
      unfold PMem.list
      rw [creation_keeps_cell hd hc hd.config_lt (by simp [hl])]
    rw [hl']
    refine List.map_congr_left fun a ha => ?_
    obtain ⟨k1, c, k2, k3⟩ := hd.descs a ha
    unfold PMem.desc
    rw [creation_keeps_cell hd hc k1 (by simp [k2]), k2]
    refine value_congr fun d hcd => ?_
    obtain ⟨m1, v, m2⟩ := k3 d hcd
    exact creation_keeps_cell hd hc m1 (by simp [m2])
  have hexp : sp.expanded.map h'.desc = cs.map (DescCell.value h) := by
    have : sp.expanded.map h'.desc = cs.map (DescCell.value h') :=
      forall₂_map_eq (fun b c hb => by simp [PMem.desc, hb.2.2]) hx
    rw [this]
    refine List.map_congr_left fun c hc' => value_congr fun d hcd => ?_
    obtain ⟨m1, v, m2⟩ := hcs c hc' d hcd
    exact creation_keeps_cell hd hc m1 (by simp [m2])
  have hcon : sp.constraints.map h'.constrs = (cons.map h.constrs).map (List.map fixConstr) := by
    rw [h2]
    cases hco : cons with
    | none => rfl
    | some l =>
      obtain ⟨k1, ⟨as, k2⟩, k3⟩ := hd.cons l hco
      have hl' : h'.list l = h.list l := by
        unfold PMem.list
        rw [creation_keeps_cell hd hc k1 (by simp [k2])]
      simp only [Option.map_some, PMem.constrs, hl', List.map_map]
      congr 1
      refine List.map_congr_left fun a ha => ?_
      obtain ⟨m1, c, m2⟩ := k3 a ha
      simp only [Function.comp, PMem.constr]
      rw [hg a m1, if_pos ⟨l, hco, ha⟩, m2]
      rfl
  unfold MSpace.view designSpace
  rw [hvars, h1, hconf, hexp, hcon, he]
  cases translateSpace ((h.list config).map h.desc) <;> rfl

/-- **C145** (partial: not the constraints, and not the domains from which anchor points are sampled in a context). Whatever
the caller does to the objects that existed before a space was created, its variables stay what they were, and so do bounds,
encoding and rounding, which depend on nothing else. -/
theorem C145_variables_partial {h h' h'' : PMem} {config : Nat} {cons : Option Nat} {sp : MSpace}
    (hd : h.Describes config cons) (hc : createSpace h config cons = (h', .ok sp)) {S : Space} (hS : sp.view h' = .ok S)
    (hw : ∀ b, h.next ≤ b → h''.get b = h'.get b) :
    ∃ S'', sp.view h'' = .ok S'' ∧ S''.vars = S.vars ∧ S''.expanded = S.expanded ∧ S''.getBounds = S.getBounds ∧
      (∀ x, S''.roundOptimum x = S.roundOptimum x) ∧ (∀ x, S''.objectiveToModel x = S.objectiveToModel x) ∧
      (∀ x, S''.modelToObjective x = S.modelToObjective x) ∧
      S''.configExpanded.map (fun d => (d.name, d.type, d.dimensionality)) =
        S.configExpanded.map (fun d => (d.name, d.type, d.dimensionality)) := by
  obtain ⟨h1, h2, h3, hg, hv, cs, hx, hcs, he⟩ := createSpace_spec hd hc
  have hvars : sp.vars.map h''.desc = sp.vars.map h'.desc := by
    have k1 := forall₂_map_eq (f := h'.desc) (g := id) (fun _ _ hb => hb.desc) hv
    have k2 := forall₂_map_eq (f := h''.desc) (g := id) (fun _ _ hb => hb.desc)
      (hv.imp fun b v hb => hb.congr (h' := h'') fun c hc1 _ => hw c hc1)
    rw [k1, k2]
  have hexp : (sp.expanded.map h''.desc).map (fun d => (d.name, d.type, d.dimensionality)) =
      (sp.expanded.map h'.desc).map (fun d => (d.name, d.type, d.dimensionality)) := by
    rw [List.map_map, List.map_map]
    have : ∀ g : PMem, (∀ b, h.next ≤ b → g.get b = h'.get b) →
        sp.expanded.map ((fun d : Desc => (d.name, d.type, d.dimensionality)) ∘ g.desc) =
        cs.map fun c => (c.name, c.type, c.dimensionality) := fun g hgg =>
      forall₂_map_eq (fun b c hb => by simp [PMem.desc, hgg b hb.1, hb.2.2, DescCell.value]) hx
    rw [this h'' hw, this h' fun _ _ => rfl]
  unfold MSpace.view at hS ⊢
  rw [hvars]
  split at hS
  · simp at hS
  · next vars hvs =>
    simp only [Except.ok.injEq] at hS
    subst hS
    exact ⟨_, rfl, rfl, rfl, rfl, fun _ => rfl, fun _ => rfl, fun _ => rfl, hexp⟩

/-- **C145** (partial: only if the caller leaves the constraints and the domains alone). The whole space stays what it was,
apart from the attribute that shows the configuration, if the caller changes neither its constraints nor its domains. -/
theorem C145_space_partial {h h' h'' : PMem} {config : Nat} {cons : Option Nat} {sp : MSpace}
    (hd : h.Describes config cons) (hc : createSpace h config cons = (h', .ok sp)) {S : Space} (hS : sp.view h' = .ok S)
    (hw : ∀ b, h.next ≤ b → h''.get b = h'.get b)
    (hcon : ∀ l, cons = some l → h''.get l = h'.get l ∧ ∀ a ∈ h.list l, h''.get a = h'.get a)
    (hdom : ∀ b x, b < h.next → h.get b = .dom x → h''.get b = .dom x) :
    ∃ S'', sp.view h'' = .ok S'' ∧ { S'' with config := S.config } = S := by
  obtain ⟨h1, h2, h3, hg, hv, cs, hx, hcs, he⟩ := createSpace_spec hd hc
  have hvars : sp.vars.map h''.desc = sp.vars.map h'.desc := by
    have k1 := forall₂_map_eq (f := h'.desc) (g := id) (fun _ _ hb => hb.desc) hv
    have k2 := forall₂_map_eq (f := h''.desc) (g := id) (fun _ _ hb => hb.desc)
      (hv.imp fun b v hb => hb.congr (h' := h'') fun c hc1 _ => hw c hc1)
    rw [k1, k2]
  have hexp : sp.expanded.map h''.desc = sp.expanded.map h'.desc := by
    have k1 : sp.expanded.map h'.desc = cs.map (DescCell.value h') :=
      forall₂_map_eq (fun b c hb => by simp [PMem.desc, hb.2.2]) hx
    have k2 : sp.expanded.map h''.desc = cs.map (DescCell.value h'') :=
      forall₂_map_eq (fun b c hb => by simp [PMem.desc, hw b hb.1, hb.2.2]) hx
    rw [k1, k2]
    refine List.map_congr_left fun c hc' => value_congr fun d hcd => ?_
    obtain ⟨m1, v, m2⟩ := hcs c hc' d hcd
    rw [hdom d v m1 m2, creation_keeps_cell hd hc m1 (by simp [m2]), m2]
  have hcons : sp.constraints.map h''.constrs = sp.constraints.map h'.constrs := by
    rw [h2]
    cases hco : cons with
    | none => rfl
    | some l =>
      obtain ⟨k1, k2⟩ := hcon l hco
      obtain ⟨m1, ⟨as, m2⟩, -⟩ := hd.cons l hco
      have hl' : h'.list l = h.list l := by
        unfold PMem.list
        rw [creation_keeps_cell hd hc m1 (by simp [m2])]
      simp only [Option.map_some, PMem.constrs]
      congr 1
      rw [show h''.list l = h'.list l by unfold PMem.list; rw [k1], hl']
      exact List.map_congr_left fun a ha => by unfold PMem.constr; rw [k2 a ha]
  unfold MSpace.view at hS ⊢
  rw [hvars, hexp, hcons]
  split at hS
  · simp at hS
  · simp only [Except.ok.injEq] at hS
    subst hS
    exact ⟨_, rfl, rfl⟩

/-- **C145.** Spaces do not disturb each other: creating a second one, from the same or other descriptions that may share
objects with the first, leaves the first what it was. -/
theorem C145_second_space {h h' h'' : PMem} {config config2 : Nat} {cons cons2 : Option Nat} {sp sp2 : MSpace}
    (hd : h.Describes config cons) (hc : createSpace h config cons = (h', .ok sp))
    (hd2 : h'.Describes config2 cons2) (hc2 : createSpace h' config2 cons2 = (h'', .ok sp2)) :
    sp.view h'' = sp.view h' := by
  obtain ⟨h1, h2, h3, hg, hv, cs, hx, hcs, he⟩ := createSpace_spec hd hc
  obtain ⟨-, -, h3', hg', -⟩ := createSpace_spec hd2 hc2
  have hvars : sp.vars.map h''.desc = sp.vars.map h'.desc := by
    have : ∀ b v, DescIn h' h.next h'.next b v → h''.desc b = h'.desc b := by
      rintro b v ⟨k1, k2, c, k3, k4, k5⟩
      unfold PMem.desc
      rw [creation_keeps_cell hd2 hc2 k2 (by simp [k3]), k3]
      refine value_congr fun d hcd => ?_
      obtain ⟨m1, m2, x, m3⟩ := k5 d hcd
      exact creation_keeps_cell hd2 hc2 m2 (by simp [m3])
    rw [forall₂_map_eq (f := h''.desc) (g := id) (fun b v hb => (this b v hb).trans hb.desc) hv,
      forall₂_map_eq (f := h'.desc) (g := id) (fun b v hb => hb.desc) hv]
  have hconf : (h''.list config).map h''.desc = (h'.list config).map h'.desc := by
    obtain ⟨l, hl⟩ := hd.config_list
    have e1 := creation_keeps_cell hd hc hd.config_lt (by simp [hl])
    have e2 := creation_keeps_cell hd2 hc2 (hd.config_lt.trans_le h3) (by simp [e1, hl])
    have hl' : h'.list config = h.list config := by unfold PMem.list; rw [e1]
    have hl'' : h''.list config = h.list config := by unfold PMem.list; rw [e2, e1]
    rw [hl', hl'']
    refine List.map_congr_left fun a ha => ?_
    obtain ⟨k1, c, k2, k3⟩ := hd.descs a ha
    have f1 := creation_keeps_cell hd hc k1 (by simp [k2])
    unfold PMem.desc
    rw [creation_keeps_cell hd2 hc2 (k1.trans_le h3) (by simp [f1, k2]), f1, k2]
    refine value_congr fun d hcd => ?_
    obtain ⟨m1, v, m2⟩ := k3 d hcd
    have g1 := creation_keeps_cell hd hc m1 (by simp [m2])
    exact creation_keeps_cell hd2 hc2 (m1.trans_le h3) (by simp [g1, m2])
  have hexp : sp.expanded.map h''.desc = sp.expanded.map h'.desc := by
    have k1 : sp.expanded.map h'.desc = cs.map (DescCell.value h') :=
      forall₂_map_eq (fun b c hb => by simp [PMem.desc, hb.2.2]) hx
    have k2 : sp.expanded.map h''.desc = cs.map (DescCell.value h'') :=
      forall₂_map_eq (fun b c hb => by
        unfold PMem.desc
        rw [creation_keeps_cell hd2 hc2 hb.2.1 (by simp [hb.2.2]), hb.2.2]) hx
    rw [k1, k2]
    refine List.map_congr_left fun c hc' => value_congr fun d hcd => ?_
    obtain ⟨m1, v, m2⟩ := hcs c hc' d hcd
    have g1 := creation_keeps_cell hd hc m1 (by simp [m2])
    exact creation_keeps_cell hd2 hc2 (m1.trans_le h3) (by simp [g1, m2])
  have hcons : sp.constraints.map h''.constrs = sp.constraints.map h'.constrs := by
    rw [h2]
    cases hco : cons with
    | none => rfl
    | some l =>
      obtain ⟨m1, ⟨as, m2⟩, m3⟩ := hd.cons l hco
      have e1 := creation_keeps_cell hd hc m1 (by simp [m2])
      have e2 := creation_keeps_cell hd2 hc2 (m1.trans_le h3) (by simp [e1, m2])
      have hl' : h'.list l = h.list l := by unfold PMem.list; rw [e1]
      have hl'' : h''.list l = h.list l := by unfold PMem.list; rw [e2, e1]
      simp only [Option.map_some, PMem.constrs, hl', hl'']
      congr 1
      refine List.map_congr_left fun a ha => ?_
      obtain ⟨k1, c, k2⟩ := m3 a ha
      have f1 : h'.get a = fixCell (h.get a) := by rw [hg a k1, if_pos ⟨l, hco, ha⟩]
      have f2 : h''.get a = h'.get a := by
        rw [hg' a (k1.trans_le h3)]
        split
        · rw [f1, fixCell_idem]
        · rfl
      unfold PMem.constr
      rw [f2]
  unfold MSpace.view
  rw [hvars, h1, hconf, hexp, hcons]

/-! ## What is shared -/

/-- A description: one variable `x` with the values 0 and 1 in a list, and the constraint `c`. -/
def exDescription (c : ConstrDict) : PMem :=
  { next := 5
    get := fun a => match a with
      | 0 => .list [1]
      | 1 => .desc ⟨some "x", some "discrete", some 2, none⟩
      | 2 => .dom (.flat [0, 1])
      | 3 => .list [4]
      | _ => .constr c }

/-- `x - q`. -/
def exBelow (q : ℚ) : Constr := fun x => .ok (x.headD 0 - q)

/-- Non-vacuity: the hypotheses of the theorems are met. -/
theorem exDescription_describes (c : ConstrDict) : (exDescription c).Describes 0 (some 3) where
  config_lt := by simp [exDescription]
  config_list := ⟨_, rfl⟩
  descs := by
    intro a ha
    simp only [exDescription, PMem.list, List.mem_singleton] at ha
    subst ha
    exact ⟨by simp [exDescription], _, rfl, fun d hd => by
      simp only [Option.some.injEq] at hd
      subst hd
      exact ⟨by simp [exDescription], _, rfl⟩⟩
  cons := by
    intro l hl
    simp only [Option.some.injEq] at hl
    subst hl
    refine ⟨by simp [exDescription], ⟨_, rfl⟩, fun a ha => ?_⟩
    simp only [exDescription, PMem.list, List.mem_singleton] at ha
    subst ha
    exact ⟨by simp [exDescription], _, rfl⟩

example : ∃ h' sp, createSpace (exDescription { constraint := some (exBelow (1 / 2)) }) 0 (some 3) = (h', .ok sp) :=
  ⟨_, _, rfl⟩

/-- What the constraints say about the two values. -/
def exIndicator (h : PMem) (sp : MSpace) : Py (List ℚ) :=
  match sp.view h with
  | .error e => .error e
  | .ok S => S.indicatorConstraints [[0], [1]]

/-- **C145, negation.** The constraints are those of the caller: if the caller changes its dictionary after the space was
created, the space has other constraints. -/
theorem C145_constraints_counterexample :
    ∃ h' sp h'', createSpace (exDescription { constraint := some (exBelow (1 / 2)) }) 0 (some 3) = (h', .ok sp) ∧
      h'' = h'.write 4 (.constr { constraint := some (exBelow 2) }) ∧
      exIndicator h' sp = .ok [1, 0] ∧ exIndicator h'' sp = .ok [1, 1] := by
  refine ⟨_, _, _, rfl, rfl, ?_, ?_⟩ <;> decide +kernel

/-- The space that is sampled for anchor points in a context that fixes nothing (`anchor_points_generator.py:28-34`): its
bounds. -/
def exAnchorBounds (h : PMem) (sp : MSpace) (ctx : Ctx) : Py (List (ℚ × ℚ)) :=
  match sp.view h with
  | .error e => .error e
  | .ok S => match anchorSpace S (some ctx) with
    | .error e => .error e
    | .ok (S', _) => S'.getBounds

/-- **C145, negation.** The domains from which anchor points are sampled in a context are those of the caller: if the caller
changes the list, anchor points are sampled outside of the bounds of the space. -/
theorem C145_context_counterexample :
    ∃ h' sp h'' ctx, createSpace (exDescription { constraint := some (exBelow 2) }) 0 (some 3) = (h', .ok sp) ∧
      h'' = h'.write 2 (.dom (.flat [0, 7])) ∧ exAnchorBounds h' sp ctx = .ok [(0, 1)] ∧
      exAnchorBounds h'' sp ctx = .ok [(0, 7)] ∧ ((sp.view h'').map Space.getBounds) = .ok (.ok [(0, 1)]) := by
  refine ⟨_, _, _, ⟨[], [], [], [0], [0], [(0, 1)]⟩, rfl, rfl, ?_, ?_, ?_⟩ <;> decide +kernel

/-- **C145, negation.** Creating a space changes the dictionary of the caller if it has the legacy key, and creating another
one undoes what the caller has assigned to the key `constraint` since, also for the first space. -/
theorem C145_legacy_counterexample :
    ∃ h' sp h2 h3 sp2, createSpace (exDescription { constrain := some (exBelow (1 / 2)) }) 0 (some 3) = (h', .ok sp) ∧
      h'.get 4 = .constr { constraint := some (exBelow (1 / 2)), constrain := some (exBelow (1 / 2)) } ∧
      h2 = h'.write 4 (.constr { constraint := some (exBelow 2), constrain := some (exBelow (1 / 2)) }) ∧
      createSpace h2 0 (some 3) = (h3, .ok sp2) ∧ exIndicator h' sp = .ok [1, 0] ∧ exIndicator h2 sp = .ok [1, 1] ∧
      exIndicator h3 sp = .ok [1, 0] := by
  refine ⟨_, _, _, _, _, rfl, rfl, rfl, rfl, ?_, ?_, ?_⟩ <;> decide +kernel

end GPyOpt.Props
