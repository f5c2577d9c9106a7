import Verif.Spec.Smaller
import Verif.Lemmas.CorrRun
import Verif.Props.Context

/-! # Lemmas about the smaller problem that is left by a context -/

namespace GPyOpt

open Spec Props

/-- Variables of the full and of the smaller problem, position by position. -/
inductive Pinned : List (Option ℚ) → List EVar → List EVar → Prop
  | nil : Pinned [] [] []
  | pin {x : ℚ} {v : EVar} {p vs ws} (hx : ValidObj v.kind x) (hb : ∀ arms, v.kind ≠ .bandit arms)
      (hd : NonEmptyDom v.kind) (h : Pinned p vs ws) : Pinned (some x :: p) (v :: vs) ws
  | free {v w : EVar} {p vs ws} (hk : w.kind = v.kind) (hb : ∀ arms, v.kind ≠ .bandit arms)
      (hd : NonEmptyDom v.kind) (h : Pinned p vs ws) : Pinned (none :: p) (v :: vs) (w :: ws)

namespace Pinned

variable {p : List (Option ℚ)} {vs ws : List EVar}

theorem fill_none_append (b x : Vec) (p : List (Option ℚ)) :
    fill (List.replicate b.length none ++ p) (b ++ x) = b ++ fill p x := by
  induction b with
  | nil => rfl
  | cons a b ih => simp only [List.length_cons, List.replicate_succ, List.cons_append, fill, ih]

theorem fill_some_append (b x : Vec) (p : List (Option ℚ)) :
    fill (b.map some ++ p) x = b ++ fill p x := by
  induction b with
  | nil => rfl
  | cons a b ih => simp only [List.map_cons, List.cons_append, fill, ih]

theorem colPinned_some (x : ℚ) (p : List (Option ℚ)) (k : Kind) (ks : List Kind) :
    colPinned (some x :: p) (k :: ks) = (encodeVal k x).map some ++ colPinned p ks := rfl

theorem colPinned_none (p : List (Option ℚ)) (k : Kind) (ks : List Kind) :
    colPinned (none :: p) (k :: ks) = List.replicate (width k) none ++ colPinned p ks := rfl

/-- The number of model columns of some variables. -/
abbrev cols (vs : List EVar) : Nat := (vs.map fun v => width v.kind).sum

/-- A row of a smaller problem starts with the block of its first variable. -/
theorem split_row {w : EVar} {x : Vec} (hx : x.length = cols (w :: ws)) :
    ∃ b x', x = b ++ x' ∧ b.length = width w.kind ∧ x'.length = cols ws := by
  simp only [cols, List.map_cons, List.sum_cons] at hx
  refine ⟨x.take (width w.kind), x.drop (width w.kind), (List.take_append_drop _ _).symm, ?_, ?_⟩
  · simp; omega
  · simp [cols]; omega

theorem modelToObjective_local {k : Kind} {b : Vec} (hb : b.length = width k)
    (pre suf pre' suf' : Vec) :
    k.modelToObjective (pre ++ (b ++ suf)) pre.length = k.modelToObjective (pre' ++ (b ++ suf')) pre'.length := by
  have h1 : ∀ pre suf : Vec, b.length = 1 → npGet (pre ++ (b ++ suf)) pre.length = npGet b 0 := by
    intro pre suf h
    obtain ⟨a, rfl⟩ := List.length_eq_one_iff.1 h
    simp [npGet]
  cases k with
  | continuous lo hi => simp only [Kind.modelToObjective]; rw [h1 _ _ hb, h1 _ _ hb]
  | discrete vals => simp only [Kind.modelToObjective]; rw [h1 _ _ hb, h1 _ _ hb]
  | categorical labels =>
    simp only [Kind.modelToObjective, width] at hb ⊢
    rw [← hb, slice_append_block, slice_append_block]
  | bandit arms => rfl

theorem toObjective (h : Pinned p vs ws) : ∀ (pre pre' suf suf' x : Vec), x.length = cols ws →
    modelToObjectiveFrom (pre ++ (fill (colPinned p (vs.map EVar.kind)) x ++ suf)) pre.length vs
      = (modelToObjectiveFrom (pre' ++ (x ++ suf')) pre'.length ws).map (fill p) := by
  induction h with
  | nil => intro pre pre' suf suf' x hx; rfl
  | @pin x0 v p vs ws hv hb hd _ ih =>
    intro pre pre' suf suf' x hx
    have he := encodable_of_validObj hv
    have := ih (pre ++ encodeVal v.kind x0) pre' suf suf' x hx
    rw [List.length_append, encodeVal_length he, List.append_assoc] at this
    rw [List.map_cons, colPinned_some, fill_some_append]
    simp only [modelToObjectiveFrom, List.append_assoc, modelToObjective_kind he, dimInModel_eq_width, this]
    cases modelToObjectiveFrom (pre' ++ (x ++ suf')) pre'.length ws <;> rfl
  | @free v w p vs ws hk hb hd _ ih =>
    intro pre pre' suf suf' x hx
    obtain ⟨b, x', rfl, hb1, hx'⟩ := split_row hx
    have := ih (pre ++ b) (pre' ++ b) suf suf' x' hx'
    simp only [List.length_append, hb1, List.append_assoc] at this
    rw [List.map_cons, colPinned_none, ← hk, ← hb1, fill_none_append]
    simp only [modelToObjectiveFrom, List.append_assoc, ← hk, dimInModel_eq_width, this]
    rw [modelToObjective_local hb1 pre _ pre' (x' ++ suf')]
    cases w.kind.modelToObjective (pre' ++ (b ++ (x' ++ suf'))) pre'.length with
    | error e => rfl
    | ok y =>
      simp only
      cases modelToObjectiveFrom (pre' ++ (b ++ (x' ++ suf'))) (pre'.length + width w.kind) ws <;> rfl

theorem toModel (h : Pinned p vs ws) : ∀ (pre pre' suf suf' z : Vec), z.length = ws.length →
    objectiveToModelFrom (pre ++ (fill p z ++ suf)) pre.length vs
      = (objectiveToModelFrom (pre' ++ (z ++ suf')) pre'.length ws).map (fill (colPinned p (vs.map EVar.kind))) := by
  induction h with
  | nil => intro pre pre' suf suf' x hx; rfl
  | @pin x0 v p vs ws hv hb hd _ ih =>
    intro pre pre' suf suf' z hz
    have he := encodable_of_validObj hv
    have := ih (pre ++ [x0]) pre' suf suf' z hz
    simp only [List.length_append, List.append_assoc, List.length_cons, List.length_nil, List.cons_append,
      List.nil_append, Nat.zero_add] at this
    have hg : npGet (pre ++ (x0 :: (fill p z ++ suf))) pre.length = .ok x0 := by simp [npGet]
    simp only [objectiveToModelFrom, fill, List.cons_append, hg, objectiveToModel_kind he, this, List.map_cons,
      colPinned_some]
    cases objectiveToModelFrom (pre' ++ (z ++ suf')) pre'.length ws with
    | error e => rfl
    | ok r => simp only [Except_map_ok, fill_some_append]
  | @free v w p vs ws hk hb hd _ ih =>
    intro pre pre' suf suf' z hz
    cases z with
    | nil => simp at hz
    | cons a z =>
      have := ih (pre ++ [a]) (pre' ++ [a]) suf suf' z (by simpa using hz)
      simp only [List.length_append, List.append_assoc, List.length_cons, List.length_nil, List.cons_append,
        List.nil_append, Nat.zero_add] at this
      have hg : ∀ (pre l : Vec), npGet (pre ++ (a :: l)) pre.length = .ok a := by intro pre l; simp [npGet]
      simp only [objectiveToModelFrom, fill, List.cons_append, hg, this, List.map_cons, colPinned_none, hk]
      cases ho : v.kind.objectiveToModel a with
      | error e => rfl
      | ok entry =>
        simp only
        cases objectiveToModelFrom (pre' ++ (a :: (z ++ suf'))) (pre'.length + 1) ws with
        | error e => rfl
        | ok r =>
          simp only [Except_map_ok]
          rw [← objectiveToModel_length ho, fill_none_append]

theorem round_valid {k : Kind} {x : ℚ} (hx : ValidObj k x) (hb : ∀ arms, k ≠ .bandit arms)
    (hd : NonEmptyDom k) : k.round (encodeVal k x) = .ok (.flat (encodeVal k x)) := by
  obtain ⟨b, h1, h2⟩ := round_flat_spec hb hd (encodeVal_length (encodable_of_validObj hx))
  rw [h1, nearest_self hb (validBlock_encodeVal hx) h2]

theorem nearest_width {k : Kind} (hb : ∀ arms, k ≠ .bandit arms) {v b : Vec} (h : Nearest k v b) :
    b.length = width k :=
  validBlock_length hb (nearest_valid h)

theorem round (h : Pinned p vs ws) : ∀ (pre pre' suf suf' x : Vec), x.length = cols ws →
    ∃ rs Rs : List Vec, roundPieces (pre' ++ (x ++ suf')) pre'.length ws = .ok (rs.map .flat) ∧
      roundPieces (pre ++ (fill (colPinned p (vs.map EVar.kind)) x ++ suf)) pre.length vs = .ok (Rs.map .flat) ∧
      rs.flatten.length = cols ws ∧ rs.length = ws.length ∧ Rs.length = vs.length ∧
      Rs.flatten = fill (colPinned p (vs.map EVar.kind)) rs.flatten := by
  induction h with
  | nil => intro pre pre' suf suf' x hx; exact ⟨[], [], rfl, rfl, rfl, rfl, rfl, rfl⟩
  | @pin x0 v p vs ws hv hb hd _ ih =>
    intro pre pre' suf suf' x hx
    have hl := encodeVal_length (encodable_of_validObj hv)
    obtain ⟨rs, Rs, h1, h2, h3, h4, h5, h6⟩ := ih (pre ++ encodeVal v.kind x0) pre' suf suf' x hx
    rw [List.length_append, hl, List.append_assoc] at h2
    refine ⟨rs, encodeVal v.kind x0 :: Rs, h1, ?_, h3, h4, by simp [h5], ?_⟩
    · rw [List.map_cons, colPinned_some, fill_some_append]
      simp only [roundPieces, List.append_assoc, dimInModel_eq_width]
      rw [h2]
      have := slice_append_block pre (encodeVal v.kind x0)
        (fill (colPinned p (vs.map EVar.kind)) x ++ suf)
      rw [hl] at this
      rw [this, round_valid hv hb hd]
      rfl
    · rw [List.map_cons, colPinned_some, fill_some_append, List.flatten_cons, h6]
  | @free v w p vs ws hk hb hd _ ih =>
    intro pre pre' suf suf' x hx
    obtain ⟨b, x', rfl, hb1, hx'⟩ := split_row hx
    obtain ⟨rs, Rs, h1, h2, h3, h4, h5, h6⟩ := ih (pre ++ b) (pre' ++ b) suf suf' x' hx'
    simp only [List.length_append, hb1, List.append_assoc] at h1 h2
    obtain ⟨r, e1, e2⟩ := round_flat_spec hb hd (hk ▸ hb1)
    have hr := nearest_width hb e2
    have s1 := slice_append_block pre b (fill (colPinned p (vs.map EVar.kind)) x' ++ suf)
    have s2 := slice_append_block pre' b (x' ++ suf')
    rw [hb1] at s1 s2
    refine ⟨r :: rs, r :: Rs, ?_, ?_, ?_, by simp [h4], by simp [h5], ?_⟩
    · simp only [roundPieces, List.append_assoc, dimInModel_eq_width, s2, h1]
      rw [hk, e1]
      rfl
    · rw [List.map_cons, colPinned_none, ← hk, ← hb1, fill_none_append]
      simp only [roundPieces, List.append_assoc, ← hk, dimInModel_eq_width, s1, h2]
      rw [hk, e1]
      rfl
    · rw [List.flatten_cons, List.length_append, h3, hr, ← hk]
      simp [cols]
    · rw [List.map_cons, colPinned_none, List.flatten_cons, List.flatten_cons, ← hr, fill_none_append, h6]

theorem unpin_fill (h : Pinned p vs ws) : ∀ z : Vec, z.length = ws.length → unpinned p (fill p z) = z := by
  induction h with
  | nil => intro z hz; simp at hz; subst hz; rfl
  | pin _ _ _ _ ih => intro z hz; simp only [fill, unpinned]; exact ih z hz
  | free _ _ _ _ ih =>
    intro z hz
    cases z with
    | nil => simp at hz
    | cons a z => simp only [fill, unpinned, ih z (by simpa using hz)]

theorem fill_blocks (h : Pinned p vs ws) : ∀ bs : List Vec,
    List.Forall₂ (fun k b => b.length = width k) (vs.map EVar.kind) bs →
    (∀ (i : Nat) (v : EVar) (x : ℚ), vs[i]? = some v → p[i]? = some (some x) →
      bs[i]? = some (encodeVal v.kind x)) →
    fill (colPinned p (vs.map EVar.kind)) (unpinned p bs).flatten = bs.flatten := by
  induction h with
  | nil => intro bs hb _; cases hb; rfl
  | @pin x0 v p vs ws hv hb hd _ ih =>
    intro bs hbs hp
    rw [List.map_cons] at hbs
    obtain ⟨b, bs', h1, h2, rfl⟩ := List.forall₂_cons_left_iff.1 hbs
    have h0 := hp 0 v x0 rfl rfl
    simp only [List.getElem?_cons_zero, Option.some.injEq] at h0
    subst h0
    rw [List.map_cons, colPinned_some, fill_some_append, List.flatten_cons]
    simp only [unpinned]
    rw [ih bs' h2 fun i v x hi hx => by simpa using hp (i + 1) v x (by simpa using hi) (by simpa using hx)]
  | @free v w p vs ws hk hb hd _ ih =>
    intro bs hbs hp
    rw [List.map_cons] at hbs
    obtain ⟨b, bs', h1, h2, rfl⟩ := List.forall₂_cons_left_iff.1 hbs
    rw [List.map_cons, colPinned_none, List.flatten_cons]
    simp only [unpinned, List.flatten_cons]
    rw [← h1, fill_none_append,
      ih bs' h2 fun i v x hi hx => by simpa using hp (i + 1) v x (by simpa using hi) (by simpa using hx)]

theorem length (h : Pinned p vs ws) : p.length = vs.length := by
  induction h with
  | nil => rfl
  | pin _ _ _ _ ih => simp [ih]
  | free _ _ _ _ ih => simp [ih]

end Pinned

theorem keep_unpinned {α : Type} {q : Nat → Bool} : ∀ {p : List (Option ℚ)} {l : List α} (s : Nat),
    p.length = l.length → (∀ j, j < p.length → (q (s + j) = true ↔ p[j]? = some none)) →
    keep q s l = unpinned p l := by
  intro p
  induction p with
  | nil => intro l s hl _; cases l with
    | nil => rfl
    | cons a l => simp at hl
  | cons o p ih =>
    intro l s hl hq
    cases l with
    | nil => simp at hl
    | cons a l =>
      have h0 := hq 0 (by simp)
      have := ih (l := l) (s + 1) (by simpa using hl) fun j hj => by
        have := hq (j + 1) (by simpa using hj)
        rw [show s + (j + 1) = s + 1 + j by omega] at this
        simpa using this
      simp only [keep, this]
      cases o with
      | none => simp at h0; simp [h0, unpinned]
      | some x => simp at h0; simp [h0, unpinned]


theorem mapE_npGet_of_map_some {α : Type} {l r : List α} {idx : List Nat}
    (h : idx.map (fun i => l[i]?) = r.map some) : mapE (npGet l) idx = .ok r := by
  induction idx generalizing r with
  | nil => cases r with
    | nil => rfl
    | cons a r => simp at h
  | cons i idx ih =>
    cases r with
    | nil => simp at h
    | cons a r =>
      simp only [List.map_cons, List.cons.injEq] at h
      have h1 : npGet l i = .ok a := npGet_ok.2 h.1
      simp [mapE, h1, ih h.2]

theorem pinned_of {context : Context} : ∀ {vs ws : List EVar},
    ws.map EVar.kind = unpinned (vs.map fun v => context.lookup v.name) (vs.map EVar.kind) →
    (∀ v ∈ vs, (∀ arms, v.kind ≠ .bandit arms) ∧ NonEmptyDom v.kind ∧
      ∀ x, context.lookup v.name = some x → ValidObj v.kind x) →
    Pinned (vs.map fun v => context.lookup v.name) vs ws := by
  intro vs
  induction vs with
  | nil =>
    intro ws h _
    simp only [List.map_nil, unpinned, List.map_eq_nil_iff] at h
    subst h
    exact .nil
  | cons v vs ih =>
    intro ws h hv
    obtain ⟨h1, h2, h3⟩ := hv v (by simp)
    cases hl : context.lookup v.name with
    | some x =>
      simp only [List.map_cons, hl, unpinned] at h ⊢
      exact .pin (h3 x hl) h1 h2 (ih h fun v hv' => hv v (by simp [hv']))
    | none =>
      simp only [List.map_cons, hl, unpinned] at h ⊢
      cases ws with
      | nil => simp at h
      | cons w ws =>
        simp only [List.map_cons, List.cons.injEq] at h
        exact .free h.1 h1 h2 (ih h.2 fun v hv' => hv v (by simp [hv']))

theorem mem_of_lookup_some {context : Context} {name : String} {x : ℚ}
    (h : context.lookup name = some x) : (name, x) ∈ context := by
  induction context with
  | nil => simp at h
  | cons a context ih =>
    obtain ⟨n, y⟩ := a
    rw [List.lookup_cons] at h
    split at h
    · rename_i hn
      simp only [beq_iff_eq] at hn
      cases h
      subst hn
      simp
    · exact List.mem_cons_of_mem _ (ih h)

theorem lookup_isSome_of_mem {context : Context} {name : String} {x : ℚ} (h : (name, x) ∈ context) :
    ∃ y, context.lookup name = some y := by
  induction context with
  | nil => simp at h
  | cons a context ih =>
    obtain ⟨n, y⟩ := a
    rw [List.lookup_cons]
    split
    · exact ⟨_, rfl⟩
    · rename_i hn
      rcases List.mem_cons.1 h with h | h
      · cases h; simp at hn
      · exact ih h

theorem find_unique {sp : Space} (hn : (sp.expanded.map EVar.name).Nodup) {v w : EVar} (hv : v ∈ sp.expanded)
    (hf : sp.findVariable v.name = .ok w) : w = v :=
  List.inj_on_of_nodup_map hn (mem_of_find hf).1 hv (mem_of_find hf).2

/-- The free positions are those of the variables that the context does not name. -/
theorem free_iff_of {config : List Desc} {cs : Option (List ConstrDict)} {sp : Space} {context : Context}
    (hsp : designSpace config cs = .ok sp) (hb : sp.hasBandit = false)
    (hn : (sp.expanded.map EVar.name).Nodup) {c : Ctx} (hc : contextManager sp (some context) = .ok c) :
    ∀ j, j < (pinned sp context).length → (freePos c (0 + j) = true ↔ (pinned sp context)[j]? = some none) := by
  intro j hj
  obtain ⟨vs, es, hcok⟩ := contextManager_ok hc
  simp only [pinned, List.length_map] at hj
  have hv := List.getElem?_eq_getElem hj
  generalize hvv : sp.expanded[j] = v at hv
  have hvm : v ∈ sp.expanded := hvv ▸ List.getElem_mem hj
  have hidx := (C07_layout hsp hb j v hv).1
  simp only [pinned, List.getElem?_map, hv, Option.map_some, Option.some.injEq, freePos, Nat.zero_add,
    decide_eq_true_eq, hcok.obj]
  have hf : List.Forall₂ (fun nv v => sp.findVariable nv.1 = .ok v) context vs := hcok.find
  constructor
  · intro hno
    cases hl : context.lookup v.name with
    | none => rfl
    | some x =>
      obtain ⟨w, hw, hw2⟩ := forall₂_mem_left hf (mem_of_lookup_some hl)
      have := find_unique hn hvm hw2
      subst this
      exact absurd (List.mem_map.2 ⟨w, hw, hidx⟩) hno
  · intro hl hm
    obtain ⟨w, hw, hwi⟩ := List.mem_map.1 hm
    obtain ⟨nv, hnv, hf2⟩ := forall₂_mem_right hf hw
    have hwm := mem_of_find hf2
    have : w = v := eq_of_idxObj hsp hb hwm.1 hvm (by rw [hwi, hidx])
    subst this
    obtain ⟨y, hy⟩ := lookup_isSome_of_mem (name := nv.1) (x := nv.2) hnv
    rw [← hwm.2, hl] at hy
    cases hy

namespace Spec.Smaller

variable {sp spF : Space} {context : Context}

theorem rel (h : Smaller sp context spF) : Pinned (pinned sp context) sp.expanded spF.expanded := by
  obtain ⟨config, cs, hsp⟩ := h.built
  refine pinned_of h.kinds fun v hv => ⟨?_, ?_, ?_⟩
  · exact space_noBandit hsp h.noBandit v.kind (List.mem_map_of_mem hv)
  · exact h.domains v.kind (List.mem_map_of_mem hv)
  · intro x hx
    obtain ⟨w, h1, h2⟩ := h.valid.2 _ (mem_of_lookup_some hx)
    rw [← find_unique h.names hv h1]
    exact h2

/-- The model columns that the context fixes, with their values. -/
abbrev pm (sp : Space) (context : Context) : List (Option ℚ) :=
  colPinned (pinned sp context) (sp.expanded.map EVar.kind)

theorem free_iff (h : Smaller sp context spF) {c : Ctx} (hc : GPyOpt.contextManager sp (some context) = .ok c) :
    ∀ j, j < (pinned sp context).length → (freePos c (0 + j) = true ↔ (pinned sp context)[j]? = some none) := by
  obtain ⟨config, cs, hsp⟩ := h.built
  exact free_iff_of hsp h.noBandit h.names hc

/-- Filling up the free columns. -/
theorem expand_blocks (h : Smaller sp context spF) {c : Ctx}
    (hc : GPyOpt.contextManager sp (some context) = .ok c) {x : Vec} (hx : x.length = c.noncontextIndex.length) :
    c.expandVector sp x = .ok (fill (pm sp context) x) ∧
      GPyOpt.x0NoContext (some c) (fill (pm sp context) x) = .ok x := by
  obtain ⟨config, cs, hsp⟩ := h.built
  obtain ⟨vs, es, hcok⟩ := contextManager_ok hc
  obtain ⟨bin, h1, h2, h3, h4, h5, h6, h7⟩ := expandVector_blocks hsp h.noBandit hcok h.valid.1 x hx
  have hlen : bin.length = sp.expanded.length := by rw [← h2.length_eq, Space.kinds, List.length_map]
  have hk := keep_unpinned (q := freePos c) (p := pinned sp context) (l := bin) 0
    (by simp [pinned, hlen]) (h.free_iff hc)
  have hval := hcok.values (fun nv hnv => (h.valid.2 nv hnv).imp fun _ hv => ⟨hv.1, encodable_of_validObj hv.2⟩)
  have hfill := h.rel.fill_blocks bin h2 (by
    intro i v y hi hy
    have hvm := List.mem_of_getElem? hi
    simp only [pinned, List.getElem?_map, hi, Option.map_some, Option.some.injEq] at hy
    obtain ⟨ve, hve, hf, he⟩ := forall₂_mem_left hval (mem_of_lookup_some hy)
    have hw := find_unique h.names hvm hf
    have : bin[ve.1.idxObj]? = some ve.2 := (List.forall₂_iff_zip.1 h4).2 hve
    rw [hw, (C07_layout hsp h.noBandit i v hi).1, he, hw] at this
    exact this)
  have hx' : (unpinned (pinned sp context) bin).flatten = x := by rw [← hk]; exact h5
  rw [hx'] at hfill
  refine ⟨by rw [h1, hfill], ?_⟩
  rw [hfill]
  exact mapE_npGet_of_map_some h6

theorem noncontext_length (h : Smaller sp context spF) {c : Ctx}
    (hc : GPyOpt.contextManager sp (some context) = .ok c) : c.noncontextIndex.length = spF.modelDim := by
  obtain ⟨config, cs, hsp⟩ := h.built
  obtain ⟨vs, es, hcok⟩ := contextManager_ok hc
  obtain ⟨-, -, -, hfree⟩ := hcok.columns hsp h.noBandit h.valid.1
  rw [hfree, List.length_flatten, modelDim_eq, h.kinds]
  show ((keep (freePos c) 0 (sp.expanded.map EVar.idxModel)).map List.length).sum = _
  rw [← keep_unpinned (q := freePos c) 0 (by simp [pinned, Space.kinds]) (h.free_iff hc),
    ← keep_map, ← keep_map, Space.kinds, List.map_map, List.map_map]
  congr 2
  apply List.map_congr_left
  intro v hv
  obtain ⟨i, hi⟩ := List.getElem?_of_mem hv
  simp [(C07_layout hsp h.noBandit i v hi).2.2]

end Spec.Smaller

theorem keep_all {α : Type} (q : Nat → Bool) (hq : ∀ j, q j = true) : ∀ (l : List α) (s : Nat), keep q s l = l := by
  intro l
  induction l with
  | nil => intro s; rfl
  | cons a l ih => intro s; simp [keep, hq, ih]

/-- Without a context nothing is filled up. -/
theorem expand_self {config : List Desc} {cs : Option (List ConstrDict)} {sp : Space}
    (h : designSpace config cs = .ok sp) (hb : sp.hasBandit = false) {c : Ctx}
    (hc : contextManager sp none = .ok c) :
    c.noncontextIndex.length = sp.modelDim ∧ freePos c = (fun _ => true) ∧ ∀ x : Vec, x.length = sp.modelDim →
      c.expandVector sp x = .ok x ∧ x0NoContext (some c) x = .ok x := by
  have hc2 := hc
  unfold contextManager at hc2
  cases hbd : sp.getBounds with
  | error e => simp [hbd] at hc2
  | ok bounds =>
    simp only [hbd, Except.ok.injEq] at hc2
    have hn : c.noncontextIndex.length = sp.modelDim := by rw [← hc2]; simp
    have hf : freePos c = fun _ => true := by funext j; rw [← hc2]; simp [freePos]
    refine ⟨hn, hf, fun x hx => ?_⟩
    obtain ⟨vs, es, hcok⟩ := contextManager_ok hc
    obtain ⟨bin, h1, h2, h3, h4, h5, h6, h7⟩ :=
      expandVector_blocks h hb hcok (by simp) x (by rw [hn, hx])
    have h8 : (keep (freePos c) 0 bin).flatten = x := h5
    rw [hf, keep_all _ (fun _ => rfl)] at h8
    refine ⟨by rw [h1, h8], ?_⟩
    rw [h8] at h6
    exact mapE_npGet_of_map_some h6

/-- No change of units. -/
theorem convRow_one (n : Nat) : ∀ x : Vec, convRow (List.replicate n (1, 0)) x = x := by
  induction n with
  | zero => intro x; cases x <;> rfl
  | succ n ih =>
    intro x
    cases x with
    | nil => rfl
    | cons a x => simp [List.replicate_succ, conv, ih]

theorem convRow_colUnits_one (ks : List Kind) : ∀ (n : Nat) (x : Vec),
    convRow (colUnits (List.replicate n (1, 0)) ks) x = x := by
  intro n x
  have : ∃ m, colUnits (List.replicate n (1, 0)) ks = List.replicate m (1, 0) := by
    clear x
    induction ks generalizing n with
    | nil => exact ⟨0, by simp [colUnits]⟩
    | cons k ks ih =>
      cases n with
      | zero => exact ⟨0, by simp [colUnits]⟩
      | succ n =>
        obtain ⟨m, hm⟩ := ih n
        refine ⟨width k + m, ?_⟩
        simp only [colUnits] at hm
        simp [colUnits, List.replicate_succ, hm]
  obtain ⟨m, hm⟩ := this
  rw [hm, convRow_one]

/-- Spaces with the same one-dimensional variables are the same in the same units. -/
theorem otherUnits_one {config config' : List Desc} {cs cs' : Option (List ConstrDict)} {sp sp' : Space}
    (h : designSpace config cs = .ok sp) (h' : designSpace config' cs' = .ok sp') (hb : sp.hasBandit = false)
    (hb' : sp'.hasBandit = false) (hk : sp'.kinds = sp.kinds) :
    OtherUnits (List.replicate sp.kinds.length (1, 0)) sp sp' := by
  refine ⟨⟨_, _, h⟩, ⟨_, _, h'⟩, hb, hb', ?_, ?_⟩
  · have hnb := space_noBandit h hb
    unfold Space.kinds at hnb ⊢
    generalize sp.expanded.map EVar.kind = ks at hnb
    induction ks with
    | nil => exact .nil
    | cons k ks ih =>
      refine .cons ⟨by norm_num, ?_⟩ (ih fun k hk => hnb k (by simp [hk]))
      cases k with
      | bandit arms => exact absurd rfl (hnb (.bandit arms) (by simp) arms)
      | _ => simp
  · have : ∀ ks : List Kind, List.zipWith convKind (List.replicate ks.length (1, 0)) ks = ks := by
      intro ks
      induction ks with
      | nil => rfl
      | cons k ks ih =>
        simp only [List.length_cons, List.replicate_succ, List.zipWith_cons_cons, ih]
        congr 1
        have hone : conv (1, 0) = id := funext fun x => by simp [conv]
        cases k <;> simp [convKind, hone]
    show sp'.kinds = _
    rw [hk]
    exact (this sp.kinds).symm

theorem sameConstraints_one (n : Nat) (cs : Option (List ConstrDict)) :
    SameConstraints (List.replicate n (1, 0)) cs cs := by
  cases cs with
  | none => exact .none
  | some cs =>
    refine .some (List.forall₂_same.2 fun c _ => ?_)
    unfold SameVerdict
    cases constraintOf c with
    | none => trivial
    | some f => intro x; rw [convRow_one]

/-- Spaces with the same one-dimensional variables and the same constraints draw the same designs. -/
theorem sameKinds_design {config config' : List Desc} {cs : Option (List ConstrDict)} {sp sp' : Space}
    (h : designSpace config cs = .ok sp) (h' : designSpace config' cs = .ok sp') (hb : sp.hasBandit = false)
    (hb' : sp'.hasBandit = false) (hk : sp'.kinds = sp.kinds) :
    (∀ name o n, initialDesign name sp' o n = initialDesign name sp o n) ∧
      (∀ X, sp'.unzipInputs X = sp.unzipInputs X) ∧
      ∀ X m, sp.unzipInputs X = .ok m → ∀ r ∈ m, r.length = sp.modelDim ∨ r = [] := by
  have hu := otherUnits_one h h' hb hb' hk
  have hc : sp'.constraints = sp.constraints := by
    obtain ⟨_, -, -, -, -, -, h1⟩ := designSpace_ok h
    obtain ⟨_, -, -, -, -, -, h2⟩ := designSpace_ok h'
    rw [h1, h2]
  have hid : ∀ n, convRow (List.replicate n (1, 0)) = id := fun n => funext (convRow_one n)
  have hid2 : ∀ ks n, convRow (colUnits (List.replicate n (1, 0)) ks) = id :=
    fun ks n => funext (convRow_colUnits_one ks n)
  refine ⟨fun name o n => ?_, fun X => ?_, fun X m => hu.unzipInputs_length⟩
  · rw [hu.initialDesign (by rw [hc]; exact sameConstraints_one _ _) name o n, hid]
    cases initialDesign name sp o n <;> simp
  · have := hu.unzipInputs X
    rw [hid, hid2] at this
    simp only [List.map_id] at this
    rw [this]
    cases sp.unzipInputs X <;> simp

theorem scatterB_nil {idx : List Nat} (h : idx ≠ []) (row : Vec) : scatterB idx [] row = .error .valueError := by
  unfold scatterB
  rw [if_neg (by simpa using fun h0 => h (List.length_eq_zero_iff.1 h0.symm))]

namespace Spec.Smaller

variable {sp spF : Space} {context : Context}

theorem kinds_sub (h : Smaller sp context spF) : ∀ k ∈ spF.kinds, k ∈ sp.kinds := by
  have : ∀ (p : List (Option ℚ)) (l : List Kind), ∀ k ∈ unpinned p l, k ∈ l := by
    intro p
    induction p with
    | nil => intro l k hk; simp [unpinned] at hk
    | cons o p ih =>
      intro l k hk
      cases l with
      | nil => cases o <;> simp [unpinned] at hk
      | cons a l =>
        cases o with
        | none =>
          simp only [unpinned, List.mem_cons] at hk ⊢
          exact hk.imp id (ih l k)
        | some x =>
          simp only [unpinned] at hk
          exact List.mem_cons_of_mem _ (ih l k hk)
  rw [h.kinds]
  exact this _ _

theorem free_pos (h : Smaller sp context spF) : 0 < spF.modelDim := by
  rw [modelDim_eq]
  have hne := h.free
  have hsub := h.kinds_sub
  cases hu : spF.kinds with
  | nil => exact absurd hu hne
  | cons k ks =>
    have := h.domains k (hsub k (by simp [hu]))
    have hw : 0 < width k := by
      cases k with
      | categorical labels => exact List.length_pos_of_ne_nil this
      | continuous lo hi => exact Nat.one_pos
      | discrete vals => exact Nat.one_pos
      | bandit arms =>
        obtain ⟨config, cs, hsp⟩ := h.built
        exact absurd rfl (space_noBandit hsp h.noBandit _ (hsub _ (by rw [hu]; simp)) arms)
    simp only [List.map_cons, List.sum_cons]
    omega

theorem samples (h : Smaller sp context spF) {c cF : Ctx}
    (hc : GPyOpt.contextManager sp (some context) = .ok c)
    (hcF : GPyOpt.contextManager spF none = .ok cF) (unique : Bool) (t : String) (n : Nat) (o : DesignOracle) :
    anchorSamples sp (some c) unique t n o
      = (anchorSamples spF (some cF) unique t n o).map (List.map (fill (pm sp context))) := by
  obtain ⟨config, cs, hsp⟩ := h.built
  obtain ⟨config', cs', hspF⟩ := h.built'
  obtain ⟨ds, spA, a1, a2, a3, a4⟩ := anchorSpace_ok hsp h.noBandit hc
  obtain ⟨ds', spB, b1, b2, b3, b4⟩ := anchorSpace_ok hspF h.noBandit' hcF
  obtain ⟨e1, e2, e3⟩ := expand_self hspF h.noBandit' hcF
  rw [e2, keep_all _ (fun _ => rfl)] at b4
  rw [keep_unpinned 0 (by simp [pinned, Space.kinds]) (h.free_iff hc), ← h.kinds, ← b4] at a4
  rw [h.constraints] at b2
  obtain ⟨d1, d2, d3⟩ := sameKinds_design b2 a2 b3 a3 a4
  have hdim : spB.modelDim = spF.modelDim := by rw [modelDim_eq, modelDim_eq, b4]
  have hrow : ∀ r : Vec, r.length = spF.modelDim ∨ r = [] →
      c.expandVector sp r = (cF.expandVector spF r).map (fill (pm sp context)) := by
    rintro r (hr | rfl)
    · rw [(e3 r hr).1, (h.expand_blocks hc (by rw [h.noncontext_length hc, hr])).1]; rfl
    · have p1 : c.noncontextIndex ≠ [] := by
        intro h0
        have := h.noncontext_length hc
        rw [h0] at this
        have := h.free_pos
        simp_all
      have p2 : cF.noncontextIndex ≠ [] := by
        intro h0
        rw [h0] at e1
        have := h.free_pos
        simp_all
      simp only [Ctx.expandVector, scatterB_nil p1, scatterB_nil p2]
      rfl
  have hmap : ∀ X m, spB.unzipInputs X = .ok m →
      mapE (GPyOpt.addContext (some c) sp) m
        = (mapE (GPyOpt.addContext (some cF) spF) m).map (List.map (fill (pm sp context))) := by
    intro X m hm
    have := OtherUnits.mapE_conv (f := GPyOpt.addContext (some cF) spF) (f' := GPyOpt.addContext (some c) sp)
      (g := id) (k := fill (pm sp context)) m fun r hr =>
        hrow r (by rw [← hdim]; exact d3 X m hm r hr)
    simpa using this
  unfold anchorSamples
  rw [a1, b1]
  simp only [d1, d2]
  cases initialDesign t spB o n with
  | error e => rfl
  | ok X =>
    simp only
    have hfin : ∀ r : Py Mat, (∀ m, r = .ok m → mapE (GPyOpt.addContext (some c) sp) m
        = (mapE (GPyOpt.addContext (some cF) spF) m).map (List.map (fill (pm sp context)))) →
        (match r with
          | .error e => (.error e : Py Mat)
          | .ok X => mapE (GPyOpt.addContext (some c) sp) X)
        = (match r with
          | .error e => (.error e : Py Mat)
          | .ok X => mapE (GPyOpt.addContext (some cF) spF) X).map (List.map (fill (pm sp context))) := by
      intro r hr
      cases r with
      | error e => rfl
      | ok m => exact hr m rfl
    refine hfin _ fun m hm => ?_
    split at hm
    · split at hm
      · cases hm
      · exact hmap _ m hm
    · exact hmap _ m hm

theorem modelDim_cols (spF : Space) : spF.modelDim = Pinned.cols spF.expanded := by
  rw [modelDim_eq, Space.kinds, List.map_map]
  rfl

/-- A context leaves a smaller problem: the suggestions correspond. -/
theorem corr (h : Smaller sp context spF) {c cF : Ctx}
    (hc : GPyOpt.contextManager sp (some context) = .ok c)
    (hcF : GPyOpt.contextManager spF none = .ok cF) :
    Corr spF cF sp c (fill (pm sp context)) id (fill (pinned sp context)) Eq (fun _ _ => True) (fun _ => True)
      fun x => x.length = spF.modelDim := by
  obtain ⟨config', cs', hspF⟩ := h.built'
  obtain ⟨e1, e2, e3⟩ := expand_self hspF h.noBandit' hcF
  have hrd : ∀ x : Vec, x.length = spF.modelDim → ∃ r : Vec, r.length = spF.modelDim ∧
      spF.roundOptimum2d [x] = .ok [r] ∧
      sp.roundOptimum2d [fill (pm sp context) x] = .ok [fill (pm sp context) r] := by
    intro x hx
    have hx' := hx
    rw [modelDim_cols] at hx'
    obtain ⟨rs, Rs, r1, r2, r3, r4, r5, r6⟩ := h.rel.round [] [] [] [] x hx'
    simp only [List.nil_append, List.append_nil, List.length_nil] at r1 r2
    have hne : spF.expanded ≠ [] := by
      intro h0; exact h.free (by simp [Space.kinds, h0])
    have hrs : rs ≠ [] := by
      rintro rfl; exact hne (List.length_eq_zero_iff.1 r4.symm)
    have hRs : Rs ≠ [] := by
      rintro rfl
      have h0 := List.length_eq_zero_iff.1 r5.symm
      have := h.kinds
      rw [Space.kinds, Space.kinds, h0] at this
      apply hne
      have h1 : spF.expanded.map EVar.kind = [] := by
        rw [this]
        simp only [pinned, h0, List.map_nil, unpinned]
      simpa using h1
    refine ⟨rs.flatten, by rw [modelDim_cols]; exact r3, ?_, ?_⟩
    · simp only [Space.roundOptimum2d, Space.roundOptimum, r1, GPyOpt.concatPieces_flat hrs]
    · simp only [Space.roundOptimum2d, Space.roundOptimum, r2, GPyOpt.concatPieces_flat hRs, r6]
  refine ⟨h.noBandit', ?_, fun _ _ _ _ _ _ _ _ hX => Corr.samples_length h.noBandit' hX, fun _ hx => hx, ?_, ?_, ?_,
    ?_, fun _ _ _ _ _ _ _ => trivial, ?_, ?_⟩
  · rintro unique t n o _ - rfl
    exact h.samples hc hcF unique t n o
  · intro x hx
    rw [(e3 x hx).2, (h.expand_blocks hc (by rw [h.noncontext_length hc, hx])).2]
    rfl
  · intro x hx
    rw [e1] at hx
    rw [(e3 x hx).1, id, (h.expand_blocks hc (by rw [h.noncontext_length hc, hx])).1]
    rfl
  · intro x hx _
    obtain ⟨r, -, r1, r2⟩ := hrd x hx
    rw [r1, r2]
    rfl
  · intro x m hx _ hm
    obtain ⟨r, r0, r1, -⟩ := hrd x hx
    rw [r1] at hm
    cases hm
    simpa using r0
  · intro m hm hl
    simp only [Space.zipInputs, h.noBandit, h.noBandit', Bool.false_eq_true, if_false]
    have := OtherUnits.mapE_conv (f := spF.modelToObjective) (f' := sp.modelToObjective)
      (g := fill (pm sp context)) (k := fill (pinned sp context)) m fun x hx => by
        have hx' := hl x hx
        rw [modelDim_cols] at hx'
        have := h.rel.toObjective [] [] [] [] x hx'
        simpa [Space.modelToObjective] using this
    rw [this]
    cases hm' : mapE spF.modelToObjective m with
    | error e => rfl
    | ok m' =>
      have hl' := mapE_length hm'
      cases m' with
      | nil => exact absurd (List.length_eq_zero_iff.1 hl'.symm) hm
      | cons a m' => rfl
  · intro x y hx hy he
    have := congrArg (unpinned (pinned sp context)) he
    rwa [h.rel.unpin_fill x hx, h.rel.unpin_fill y hy] at this

theorem sameUnzip (h : Smaller sp context spF) :
    SameUnzip spF.expanded.length (fill (pm sp context)) (fill (pinned sp context)) spF sp := by
  intro X hX
  simp only [Space.unzipInputs, h.noBandit, h.noBandit', Bool.false_eq_true, if_false]
  have := OtherUnits.mapE_conv (f := spF.objectiveToModel) (f' := sp.objectiveToModel)
    (g := fill (pinned sp context)) (k := fill (pm sp context)) X fun x hx => by
      have := h.rel.toModel [] [] [] [] x (hX.2 x hx)
      simpa [sp.objectiveToModel_of h.noBandit, spF.objectiveToModel_of h.noBandit'] using this
  rw [this]
  cases hm' : mapE spF.objectiveToModel X with
  | error e => rfl
  | ok m' =>
    have hl' := mapE_length hm'
    cases m' with
    | nil => exact absurd (List.length_eq_zero_iff.1 hl'.symm) hX.1
    | cons a m' => rfl

theorem rowSqDist_fill {vs ws : List EVar} {p : List (Option ℚ)} (h : Pinned p vs ws) : ∀ x y : Vec,
    x.length = ws.length → y.length = ws.length → rowSqDist (fill p x) (fill p y) = rowSqDist x y := by
  induction h with
  | nil =>
    intro x y hx hy
    rw [List.length_nil, List.length_eq_zero_iff] at hx hy
    subst hx hy
    rfl
  | pin _ _ _ _ ih =>
    intro x y hx hy
    rw [← ih x y hx hy]
    simp [rowSqDist, fill]
  | free _ _ _ _ ih =>
    intro x y hx hy
    cases x with
    | nil => simp at hx
    | cons a x =>
      cases y with
      | nil => simp at hy
      | cons b y =>
        have := ih x y (by simpa using hx) (by simpa using hy)
        unfold rowSqDist at this ⊢
        simp only [fill, List.zipWith_cons_cons, List.map_cons, List.sum_cons, this]

theorem sameStopped (h : Smaller sp context spF) (eps : ℚ) :
    SameStopped spF.expanded.length (fill (pinned sp context)) eps eps := by
  intro X hX
  unfold lastTwoClose
  rw [← List.map_reverse]
  cases hr : X.reverse with
  | nil => rfl
  | cons x l =>
    cases l with
    | nil => rfl
    | cons y l =>
      have hx := hX.2 x (List.mem_reverse.1 (by rw [hr]; simp))
      have hy := hX.2 y (List.mem_reverse.1 (by rw [hr]; simp))
      simp only [List.map_cons, rowSqDist_fill h.rel x y hx hy]

/-- Both context managers exist. -/
theorem managers (h : Smaller sp context spF) : ∃ c cF, GPyOpt.contextManager sp (some context) = .ok c ∧
    GPyOpt.contextManager spF none = .ok cF := by
  obtain ⟨config, cs, hsp⟩ := h.built
  obtain ⟨config', cs', hspF⟩ := h.built'
  obtain ⟨c, -, hc, -⟩ := C23_context_partition hsp h.noBandit
    (fun k hk => h.domains k (by rw [space_kinds_eq hsp]; exact hk)) (some context) (validContext_good h.valid)
  obtain ⟨cF, -, hcF, -⟩ := C23_context_partition hspF h.noBandit'
    (fun k hk => h.domains k (h.kinds_sub k (by rw [space_kinds_eq hspF]; exact hk))) none ⟨by simp, by simp⟩
  exact ⟨c, cF, hc, hcF⟩

theorem inContext_fill (h : Smaller sp context spF) {X : Mat} (hX : ∀ r ∈ X, r.length = spF.expanded.length) :
    inContext (pinned sp context) (X.map (fill (pinned sp context))) = X := by
  induction X with
  | nil => rfl
  | cons x X ih =>
    have hx := h.rel.unpin_fill x (hX x (by simp))
    have := ih fun r hr => hX r (by simp [hr])
    simp only [inContext] at this ⊢
    rw [List.map_cons, List.filter_cons_of_pos (by simp [hx]), List.map_cons, hx, this]

end Spec.Smaller

end GPyOpt
