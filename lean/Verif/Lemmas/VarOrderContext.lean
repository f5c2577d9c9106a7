import Verif.Spec.VarOrderContext
import Verif.Lemmas.VarOrderCorr
import Verif.Lemmas.Smaller
import Mathlib.Data.List.Induction

/-! # Lemmas about the order of the variables, in a context -/

namespace GPyOpt

open Spec Props

theorem freeBefore_zero (p : List (Option ℚ)) : freeBefore p 0 = 0 := by simp [freeBefore]

theorem freeBefore_some (v : ℚ) (p : List (Option ℚ)) (i : Nat) :
    freeBefore (some v :: p) (i + 1) = freeBefore p i := by simp [freeBefore]

theorem freeBefore_none (p : List (Option ℚ)) (i : Nat) :
    freeBefore (none :: p) (i + 1) = freeBefore p i + 1 := by simp [freeBefore]

theorem unpinned_get {α : Type} : ∀ {p : List (Option ℚ)} {l : List α} {i : Nat}, p.length = l.length →
    p[i]? = some none → (unpinned p l)[freeBefore p i]? = l[i]? := by
  intro p
  induction p with
  | nil => intro l i _ h; simp at h
  | cons a p ih =>
    intro l i hl h
    cases l with
    | nil => simp at hl
    | cons b l =>
      have hl' : p.length = l.length := by simpa using hl
      cases i with
      | zero =>
        simp only [List.getElem?_cons_zero, Option.some.injEq] at h
        subst h
        simp [unpinned, freeBefore_zero]
      | succ i =>
        have h' : p[i]? = some none := by simpa using h
        cases a with
        | none => simp only [unpinned, freeBefore_none, List.getElem?_cons_succ, ih hl' h']
        | some v => simp only [unpinned, freeBefore_some, List.getElem?_cons_succ, ih hl' h']

theorem fill_get : ∀ {p : List (Option ℚ)} {z : Vec}, z.length = (p.filter Option.isNone).length → ∀ {i : Nat},
    (fill p z)[i]? = (match p[i]? with
      | none => none
      | some (some v) => some v
      | some none => z[freeBefore p i]?) := by
  intro p
  induction p with
  | nil => intro z _ i; simp [fill]
  | cons a p ih =>
    intro z hz i
    cases a with
    | some v =>
      have hz' : z.length = (p.filter Option.isNone).length := by simpa using hz
      cases i with
      | zero => simp [fill]
      | succ i => simp only [fill, List.getElem?_cons_succ, freeBefore_some, ih hz']
    | none =>
      cases z with
      | nil => simp at hz
      | cons x z =>
        have hz' : z.length = (p.filter Option.isNone).length := by simpa using hz
        cases i with
        | zero => simp [fill, freeBefore_zero]
        | succ i => simp only [fill, List.getElem?_cons_succ, freeBefore_none, ih hz']

theorem unpinned_length {α : Type} : ∀ {p : List (Option ℚ)} {l : List α}, p.length = l.length →
    (unpinned p l).length = (p.filter Option.isNone).length := by
  intro p
  induction p with
  | nil => intro l _; simp [unpinned]
  | cons a p ih =>
    intro l hl
    cases l with
    | nil => simp at hl
    | cons b l =>
      have hl' : p.length = l.length := by simpa using hl
      cases a <;> simp [unpinned, ih hl']

theorem fill_length : ∀ {p : List (Option ℚ)} {z : Vec}, z.length = (p.filter Option.isNone).length →
    (fill p z).length = p.length := by
  intro p
  induction p with
  | nil => intro z _; rfl
  | cons a p ih =>
    intro z hz
    cases a with
    | some v => simp only [fill, List.length_cons, ih (z := z) (by simpa using hz)]
    | none =>
      cases z with
      | nil => simp at hz
      | cons x z => simp only [fill, List.length_cons, ih (z := z) (by simpa using hz)]

theorem freeBefore_lt {p : List (Option ℚ)} {i : Nat} (h : p[i]? = some none) :
    freeBefore p i < (p.filter Option.isNone).length := by
  have h1 := unpinned_get (l := p) rfl h
  rw [h] at h1
  have := (List.getElem?_eq_some_iff.1 h1).1
  rwa [unpinned_length rfl] at this

theorem freeOrder_cons (i : Nat) (τ : List Nat) (p : List (Option ℚ)) :
    freeOrder (i :: τ) p = if p[i]? = some none then freeBefore p i :: freeOrder τ p else freeOrder τ p := by
  unfold freeOrder
  by_cases h : p[i]? = some none
  · rw [if_pos h, List.filterMap_cons, if_pos h]
  · rw [if_neg h, List.filterMap_cons, if_neg h]

theorem unpinned_order {α : Type} {p : List (Option ℚ)} {l : List α} (hl : p.length = l.length) :
    ∀ {τ : List Nat}, (∀ i ∈ τ, i < p.length) →
    unpinned (τ.filterMap (p[·]?)) (τ.filterMap (l[·]?)) = (freeOrder τ p).filterMap ((unpinned p l)[·]?) := by
  intro τ
  induction τ with
  | nil => intro _; rfl
  | cons i τ ih =>
    intro h
    have h1 := ih fun j hj => h j (by simp [hj])
    have hi := h i (by simp)
    have hi' : l[i]? = some l[i] := List.getElem?_eq_getElem (by omega)
    rw [freeOrder_cons]
    cases hp : p[i]? with
    | none => rw [List.getElem?_eq_none_iff] at hp; omega
    | some a =>
      rw [List.filterMap_cons, hp, List.filterMap_cons, hi']
      cases a with
      | some v =>
        rw [if_neg (by simp)]
        exact h1
      | none =>
        rw [if_pos rfl, List.filterMap_cons, unpinned_get hl hp, hi']
        simp only [unpinned, h1]

theorem fill_order {p : List (Option ℚ)} {z : Vec} (hz : z.length = (p.filter Option.isNone).length) :
    ∀ {τ : List Nat}, (∀ i ∈ τ, i < p.length) →
    τ.filterMap ((fill p z)[·]?) = fill (τ.filterMap (p[·]?)) ((freeOrder τ p).filterMap (z[·]?)) := by
  intro τ
  induction τ with
  | nil => intro _; rfl
  | cons i τ ih =>
    intro h
    have h1 := ih fun j hj => h j (by simp [hj])
    have hi := h i (by simp)
    have hf := fill_get hz (i := i)
    rw [freeOrder_cons]
    cases hp : p[i]? with
    | none => rw [List.getElem?_eq_none_iff] at hp; omega
    | some a =>
      rw [hp] at hf
      rw [List.filterMap_cons, hf, List.filterMap_cons, hp]
      cases a with
      | some v =>
        rw [if_neg (by simp)]
        simp only [fill, h1]
      | none =>
        have := freeBefore_lt hp
        have hx : z[freeBefore p i]? = some z[freeBefore p i] := List.getElem?_eq_getElem (by omega)
        rw [if_pos rfl, List.filterMap_cons, hx]
        simp only [fill, h1]

theorem freeOrder_range : ∀ p : List (Option ℚ),
    freeOrder (List.range p.length) p = List.range (p.filter Option.isNone).length := by
  intro p
  induction p using List.reverseRecOn with
  | nil => rfl
  | append_singleton p a ih =>
    have h1 : freeOrder (List.range p.length) (p ++ [a]) = freeOrder (List.range p.length) p := by
      unfold freeOrder
      refine List.filterMap_congr fun i hi => ?_
      have hi := List.mem_range.1 hi
      rw [List.getElem?_append_left hi]
      simp [freeBefore, List.take_append_of_le_length hi.le]
    rw [List.length_append, List.length_singleton, List.range_succ]
    have h2 : freeOrder (List.range p.length ++ [p.length]) (p ++ [a])
        = freeOrder (List.range p.length) (p ++ [a]) ++ freeOrder [p.length] (p ++ [a]) := by
      unfold freeOrder
      rw [List.filterMap_append]
    rw [h2, h1, ih, freeOrder_cons]
    cases a with
    | some v => simp [freeOrder]
    | none => simp [freeOrder, freeBefore, List.range_succ]

theorem freeOrder_perm {σ : List Nat} {p : List (Option ℚ)} (h : σ.Perm (List.range p.length)) :
    (freeOrder σ p).Perm (List.range (p.filter Option.isNone).length) := by
  rw [← freeOrder_range p]
  exact h.filterMap _

theorem arrange_eq {α : Type} {σ : List Nat} {l : List α} (h : σ.Perm (List.range l.length)) :
    arrange σ l = σ.filterMap (l[·]?) := by
  unfold arrange
  rw [if_pos (order_length h).symm]

/-- The free entries of a row in the order `σ` are the free entries of the row, in their order. -/
theorem unpinned_arrange {α : Type} {σ : List Nat} {p : List (Option ℚ)} {l : List α} (hl : p.length = l.length)
    (h : σ.Perm (List.range p.length)) :
    unpinned (arrange σ p) (arrange σ l) = arrange (freeOrder σ p) (unpinned p l) := by
  rw [arrange_eq h, arrange_eq (by rwa [← hl]), arrange_eq (by rw [unpinned_length hl]; exact freeOrder_perm h)]
  exact unpinned_order hl (order_lt h)

theorem fill_arrange {σ : List Nat} {p : List (Option ℚ)} {z : Vec}
    (hz : z.length = (p.filter Option.isNone).length) (h : σ.Perm (List.range p.length)) :
    arrange σ (fill p z) = fill (arrange σ p) (arrange (freeOrder σ p) z) := by
  rw [arrange_eq (by rwa [fill_length hz]), arrange_eq h, arrange_eq (by rw [hz]; exact freeOrder_perm h)]
  exact fill_order hz (order_lt h)

namespace Pinned

variable {p : List (Option ℚ)} {vs ws : List EVar}

/-- Blocks of the smaller problem, filled up. -/
theorem full_blocks (h : Pinned p vs ws) : ∀ zs : List Vec,
    List.Forall₂ (fun k b => b.length = width k) (ws.map EVar.kind) zs →
    ∃ bs : List Vec, List.Forall₂ (fun k b => b.length = width k) (vs.map EVar.kind) bs ∧ unpinned p bs = zs ∧
      ∀ (i : Nat) (v : EVar) (x : ℚ), vs[i]? = some v → p[i]? = some (some x) →
        bs[i]? = some (encodeVal v.kind x) := by
  induction h with
  | nil => intro zs hz; cases hz; exact ⟨[], .nil, rfl, by simp⟩
  | @pin x0 v p vs ws hv hb hd _ ih =>
    intro zs hz
    obtain ⟨bs, h1, h2, h3⟩ := ih zs hz
    refine ⟨encodeVal v.kind x0 :: bs, .cons (encodeVal_length (encodable_of_validObj hv)) h1, h2, ?_⟩
    intro i w x hi hx
    cases i with
    | zero =>
      simp only [List.getElem?_cons_zero, Option.some.injEq] at hi hx ⊢
      subst hi hx
      rfl
    | succ i => simpa using h3 i w x (by simpa using hi) (by simpa using hx)
  | @free v w p vs ws hk hb hd _ ih =>
    intro zs hz
    rw [List.map_cons] at hz
    obtain ⟨b, zs', e1, e2, rfl⟩ := List.forall₂_cons_left_iff.1 hz
    obtain ⟨bs, h1, h2, h3⟩ := ih zs' e2
    refine ⟨b :: bs, .cons (by rw [← hk]; exact e1) h1, by simp only [unpinned, h2], ?_⟩
    intro i u x hi hx
    cases i with
    | zero => simp at hx
    | succ i => simpa using h3 i u x (by simpa using hi) (by simpa using hx)

theorem fill_cols_length (h : Pinned p vs ws) {x : Vec} (hx : x.length = cols ws) :
    (fill (colPinned p (vs.map EVar.kind)) x).length = cols vs := by
  obtain ⟨h1, h2⟩ := blocksOf_spec (ws.map EVar.kind) x (by rw [hx]; simp [cols, List.map_map, Function.comp_def])
  obtain ⟨bs, b1, b2, b3⟩ := h.full_blocks _ h1
  have e := h.fill_blocks bs b1 b3
  rw [b2, h2] at e
  rw [e, flatten_length_width b1]
  simp [cols, List.map_map, Function.comp_def]

theorem free_length (h : Pinned p vs ws) : ws.length = (p.filter Option.isNone).length := by
  induction h with
  | nil => rfl
  | pin _ _ _ _ ih => simp [ih]
  | free _ _ _ _ ih => simp [ih]

end Pinned

namespace Spec.ArrangedIn

variable {σ : List Nat} {context : Context} {sp sp' spF spF' : Space}

/-- The order of the free variables. -/
abbrev free (_ : ArrangedIn σ context sp sp' spF spF') : List Nat := freeOrder σ (pinned sp context)

theorem pinned_eq (h : ArrangedIn σ context sp sp' spF spF') : pinned sp' context = arrange σ (pinned sp context) := by
  have e : ∀ s : Space, pinned s context = (s.expanded.map EVar.name).map fun n => context.lookup n := by
    intro s; simp [pinned, List.map_map, Function.comp_def]
  rw [e sp', h.names, e sp]
  exact (arrange_map _ _).symm

theorem pinned_length (sp : Space) (context : Context) : (pinned sp context).length = sp.kinds.length := by
  simp [pinned, Space.kinds]

theorem order_pinned (h : ArrangedIn σ context sp sp' spF spF') :
    σ.Perm (List.range (pinned sp context).length) := h.all.order' (pinned_length sp context)

theorem free_length (h : ArrangedIn σ context sp sp' spF spF') :
    spF.kinds.length = ((pinned sp context).filter Option.isNone).length := by
  rw [← h.small.rel.free_length]
  simp [Space.kinds]

/-- The smaller problems differ by the order of their variables. -/
theorem arranged (h : ArrangedIn σ context sp sp' spF spF') :
    Arranged (freeOrder σ (pinned sp context)) spF spF' := by
  refine ⟨h.small.built', h.small'.built', h.small.noBandit', h.small'.noBandit',
    fun k hk => h.small.domains k (h.small.kinds_sub k hk), h.small.free, ?_, ?_, ?_⟩
  · rw [h.free_length]
    exact freeOrder_perm h.order_pinned
  · rw [h.small'.kinds, h.small.kinds, h.pinned_eq, h.all.kinds]
    exact unpinned_arrange (pinned_length sp context) h.order_pinned
  · rw [h.small.constraints, h.small'.constraints]
    exact h.constraints

/-- A row of the objective, filled up and in the other order. -/
theorem fill_row (h : ArrangedIn σ context sp sp' spF spF') {z : Vec} (hz : z.length = spF.kinds.length) :
    fill (pinned sp' context) (arrange (freeOrder σ (pinned sp context)) z)
      = arrange σ (fill (pinned sp context) z) := by
  rw [h.pinned_eq]
  exact (fill_arrange (by rw [hz, h.free_length]) h.order_pinned).symm

/-- A row of model columns, filled up and in the other order. -/
theorem fill_cols (h : ArrangedIn σ context sp sp' spF spF') {x : Vec} (hx : x.length = spF.modelDim) :
    fill (colPinned (pinned sp' context) sp'.kinds) (arrangeCols (freeOrder σ (pinned sp context)) spF.kinds x)
      = arrangeCols σ sp.kinds (fill (colPinned (pinned sp context) sp.kinds) x) := by
  obtain ⟨zs, z1, rfl, -, z4⟩ := h.arranged.blocks hx
  obtain ⟨bs, b1, b2, b3⟩ := h.small.rel.full_blocks zs z1
  have hbl : (pinned sp context).length = bs.length := by
    rw [pinned_length, ← b1.length_eq]; rfl
  have e1 := h.small.rel.fill_blocks bs b1 b3
  rw [b2] at e1
  have e2 := unpinned_arrange hbl h.order_pinned
  rw [b2, ← h.pinned_eq] at e2
  have w' : List.Forall₂ (fun k b => b.length = width k) sp'.kinds (arrange σ bs) := by
    rw [h.all.kinds]
    exact arrange_forall₂ h.all.order b1
  have e3 := h.small'.rel.fill_blocks (arrange σ bs) w' (by
    intro i v x hv hp
    have hk : sp'.kinds[i]? = some v.kind := by simp [Space.kinds, hv]
    rw [h.all.kinds, arrange_get h.all.order] at hk
    rw [h.pinned_eq, arrange_get h.order_pinned] at hp
    rw [arrange_get (h.all.order' b1.length_eq.symm)]
    cases hi : σ[i]? with
    | none => simp [hi] at hk
    | some j =>
      simp only [hi, Option.bind_some] at hk hp ⊢
      have hk' : (sp.expanded.map EVar.kind)[j]? = some v.kind := hk
      rw [List.getElem?_map, Option.map_eq_some_iff] at hk'
      obtain ⟨w, hw, hwk⟩ := hk'
      rw [← hwk]
      exact b3 j w x hw hp)
  rw [e2] at e3
  change fill (colPinned (pinned sp context) sp.kinds) zs.flatten = bs.flatten at e1
  change fill (colPinned (pinned sp' context) sp'.kinds) _ = _ at e3
  rw [z4, e3, e1, Arranged.arrangeCols_flatten b1]

/-- The rows in the context, in the other order. -/
theorem inContext_arrange (h : ArrangedIn σ context sp sp' spF spF') {X : Mat}
    (hX : ∀ r ∈ X, r.length = sp.kinds.length) :
    inContext (pinned sp' context) (X.map (arrange σ))
      = (inContext (pinned sp context) X).map (arrange (freeOrder σ (pinned sp context))) := by
  have hu : ∀ r : Vec, r.length = sp.kinds.length → unpinned (pinned sp' context) (arrange σ r)
      = arrange (freeOrder σ (pinned sp context)) (unpinned (pinned sp context) r) := by
    intro r hr
    rw [h.pinned_eq]
    exact unpinned_arrange (by rw [pinned_length, hr]) h.order_pinned
  have hf : ∀ r : Vec, r.length = sp.kinds.length →
      (arrange σ r = fill (pinned sp' context) (unpinned (pinned sp' context) (arrange σ r)) ↔
        r = fill (pinned sp context) (unpinned (pinned sp context) r)) := by
    intro r hr
    have hl : (unpinned (pinned sp context) r).length = spF.kinds.length := by
      rw [unpinned_length (by rw [pinned_length, hr]), h.free_length]
    rw [hu r hr, h.fill_row hl]
    constructor
    · intro e
      exact arrange_inj h.all.order hr (by rw [fill_length (by rw [hl, h.free_length]), pinned_length]) e
    · intro e
      rw [← e]
  induction X with
  | nil => rfl
  | cons r X ih =>
    have ih := ih fun r hr => hX r (by simp [hr])
    have hr := hX r (by simp)
    unfold inContext at ih ⊢
    rw [List.map_cons, List.filter_cons, List.filter_cons]
    by_cases hc : r = fill (pinned sp context) (unpinned (pinned sp context) r)
    · rw [if_pos (by simpa using (hf r hr).2 hc), if_pos (by simpa using hc)]
      rw [List.map_cons, List.map_cons, List.map_cons, ih, hu r hr]
    · rw [if_neg (by simpa using fun e => hc ((hf r hr).1 e)), if_neg (by simpa using hc)]
      exact ih

end Spec.ArrangedIn

end GPyOpt
