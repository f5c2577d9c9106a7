import Verif.Spec.OneValue
import Verif.Lemmas.VarOrderContext

/-! # Lemmas about variables with one value -/

namespace GPyOpt

open Spec Props

theorem oneValue_valid {k : Kind} {v : ℚ} (h : OneValue k v) : ValidObj k v := by
  cases k with
  | continuous lo hi => obtain ⟨rfl, rfl⟩ := h; exact ⟨le_refl _, le_refl _⟩
  | discrete l =>
    obtain ⟨h1, h2⟩ := h
    cases l with
    | nil => exact absurd rfl h1
    | cons a l =>
      have := h2 a (by simp)
      subst this
      exact List.mem_cons_self
  | categorical l => obtain ⟨rfl, rfl⟩ := h; exact ⟨0, by simp, by simp⟩
  | bandit a => exact h.elim

theorem oneValue_choice {l : List ℚ} {v : ℚ} (h1 : l ≠ []) (h2 : ∀ x ∈ l, x = v) (i : Nat) : choiceOf l i = v := by
  have := Nat.mod_lt i (List.length_pos_iff.2 h1)
  unfold choiceOf
  rw [List.getD_eq_getElem?_getD, List.getElem?_eq_getElem this]
  exact h2 _ (List.getElem_mem _)

theorem pinned_single : ∀ {p : List (Option ℚ)} {vs ws : List EVar},
    List.Forall₂ (fun o k => ∀ v, o = some v → OneValue k v) p (vs.map EVar.kind) →
    ws.map EVar.kind = unpinned p (vs.map EVar.kind) →
    (∀ v ∈ vs, (∀ arms, v.kind ≠ .bandit arms) ∧ NonEmptyDom v.kind) → Pinned p vs ws := by
  intro p vs
  induction vs generalizing p with
  | nil =>
    intro ws h1 h2 _
    simp only [List.map_nil, List.forall₂_nil_right_iff] at h1
    subst h1
    simp only [unpinned, List.map_eq_nil_iff] at h2
    subst h2
    exact .nil
  | cons v vs ih =>
    intro ws h1 h2 h3
    rw [List.map_cons] at h1
    obtain ⟨o, p, e1, e2, rfl⟩ := List.forall₂_cons_right_iff.1 h1
    obtain ⟨f1, f2⟩ := h3 v (by simp)
    cases o with
    | some x =>
      simp only [List.map_cons, unpinned] at h2
      exact .pin (oneValue_valid (e1 x rfl)) f1 f2 (ih e2 h2 fun v hv => h3 v (by simp [hv]))
    | none =>
      simp only [List.map_cons, unpinned] at h2
      cases ws with
      | nil => simp at h2
      | cons w ws =>
        simp only [List.map_cons, List.cons.injEq] at h2
        exact .free h2.1 f1 f2 (ih e2 h2.2 fun v hv => h3 v (by simp [hv]))

/-- Without a context the samples are the encoded rows of the design, or of its distinct rows. -/
theorem anchorSamples_free {config : List Desc} {cs : Option (List ConstrDict)} {sp : Space}
    (h : designSpace config cs = .ok sp) (hb : sp.hasBandit = false) (hp : 0 < sp.modelDim) {c : Ctx}
    (hc : contextManager sp none = .ok c) (unique : Bool) (t : String) (n : Nat) (o : DesignOracle) :
    anchorSamples sp (some c) unique t n o = match initialDesign t sp o n with
      | .error e => .error e
      | .ok X => if X = [] then .error .valueError else
          sp.unzipInputs (if unique then sortedUnique X else X) := by
  cases unique with
  | false => exact anchorSamples_none h hb hp hc t n o
  | true =>
    -- the same computation, on the distinct rows
    obtain ⟨ds, spA, a1, a2, a3, a4⟩ := anchorSpace_ok h hb hc
    obtain ⟨e1, e2, e3⟩ := expand_self h hb hc
    rw [e2, keep_all _ (fun _ => rfl)] at a4
    obtain ⟨d1, d2, d3⟩ := sameKinds_design (designSpace_constraints_again h) a2 hb a3 a4
    unfold anchorSamples
    rw [a1]
    simp only [d1, d2, if_true]
    cases initialDesign t sp o n with
    | error e => rfl
    | ok X =>
      simp only
      by_cases hX : X = []
      · rw [if_pos hX]
      · rw [if_neg hX]
        have hX' : sortedUnique X ≠ [] := by
          intro h0
          cases X with
          | nil => exact hX rfl
          | cons r X =>
            have : r ∈ sortedUnique (r :: X) := mem_sortedUnique.2 (by simp)
            rw [h0] at this
            simp at this
        cases hu : sp.unzipInputs (sortedUnique X) with
        | error e => rfl
        | ok m =>
          simp only
          have hm : ∀ r ∈ m, r.length = sp.modelDim := by
            intro r hr
            rcases d3 _ m hu r hr with h1 | rfl
            · exact h1
            · exfalso
              simp only [Space.unzipInputs, hb, Bool.false_eq_true, if_false] at hu
              obtain ⟨m', hm', rfl⟩ := Except_map_eq_ok.1 hu
              have hl := mapE_length hm'
              have hne : m' ≠ [] := by
                rintro rfl; exact hX' (List.length_eq_zero_iff.1 hl.symm)
              have : atleast2d m' = m' := by cases m' with
                | nil => exact absurd rfl hne
                | cons _ _ => rfl
              rw [this] at hr
              obtain ⟨x, -, hx2⟩ := mapE_ok_mem hm' hr
              have := objectiveToModelFrom_row (sp.objectiveToModel_of hb x ▸ hx2)
              simp only [Space.modelDim] at hp
              simp only [List.length_nil] at this
              omega
          have : ∀ m : Mat, (∀ r ∈ m, r.length = sp.modelDim) → mapE (addContext (some c) sp) m = .ok m := by
            intro m
            induction m with
            | nil => intro _; rfl
            | cons r m ih =>
              intro hm
              have := ih fun r hr => hm r (by simp [hr])
              simp [mapE, addContext, (e3 r (hm r (by simp))).1, this]
          exact this m hm

/-- Filling up keeps the lexicographic order. -/
theorem fill_lt : ∀ {p : List (Option ℚ)} {x y : Vec}, x.length = (p.filter Option.isNone).length →
    y.length = (p.filter Option.isNone).length → (fill p x < fill p y ↔ x < y) := by
  intro p
  induction p with
  | nil =>
    intro x y hx hy
    have : x = [] := List.length_eq_zero_iff.1 hx
    have : y = [] := List.length_eq_zero_iff.1 hy
    subst_vars
    simp [fill]
  | cons a p ih =>
    intro x y hx hy
    cases a with
    | some v =>
      simp only [fill]
      rw [List.cons_lt_cons_iff]
      simp only [lt_self_iff_false, true_and, false_or]
      exact ih (by simpa using hx) (by simpa using hy)
    | none =>
      cases x with
      | nil => simp at hx
      | cons a x =>
        cases y with
        | nil => simp at hy
        | cons b y =>
          simp only [fill]
          rw [List.cons_lt_cons_iff, List.cons_lt_cons_iff, ih (by simpa using hx) (by simpa using hy)]

theorem fill_inj {p : List (Option ℚ)} {x y : Vec} (hx : x.length = (p.filter Option.isNone).length)
    (hy : y.length = (p.filter Option.isNone).length) (h : fill p x = fill p y) : x = y := by
  rcases lt_trichotomy x y with h1 | h1 | h1
  · have := (fill_lt hx hy).2 h1
    rw [h] at this
    exact absurd this (lt_irrefl _)
  · exact h1
  · have := (fill_lt hy hx).2 h1
    rw [h] at this
    exact absurd this (lt_irrefl _)

theorem dedup_map_on {α β : Type} [DecidableEq α] [DecidableEq β] {f : α → β} : ∀ {l : List α},
    (∀ x ∈ l, ∀ y ∈ l, f x = f y → x = y) → (l.map f).dedup = l.dedup.map f := by
  intro l
  induction l with
  | nil => intro _; rfl
  | cons a l ih =>
    intro h
    have h' := ih fun x hx y hy => h x (by simp [hx]) y (by simp [hy])
    rw [List.map_cons]
    by_cases ha : a ∈ l
    · rw [List.dedup_cons_of_mem (List.mem_map_of_mem ha), List.dedup_cons_of_mem ha, h']
    · rw [List.dedup_cons_of_notMem ha, List.dedup_cons_of_notMem, List.map_cons, h']
      intro hm
      obtain ⟨b, hb, hbe⟩ := List.mem_map.1 hm
      have := h b (by simp [hb]) a (by simp) hbe
      exact ha (this ▸ hb)

theorem sortedUnique_fill {p : List (Option ℚ)} {X : Mat}
    (hX : ∀ r ∈ X, r.length = (p.filter Option.isNone).length) :
    sortedUnique (X.map (fill p)) = (sortedUnique X).map (fill p) := by
  unfold sortedUnique
  rw [dedup_map_on fun x hx y hy => fill_inj (hX x hx) (hX y hy),
    List.map_insertionSort (r := (· ≤ ·)) (s := (· ≤ ·)) (fill p) X.dedup]
  intro a ha b hb
  rw [← not_lt, ← not_lt, fill_lt (hX b (List.mem_dedup.1 hb)) (hX a (List.mem_dedup.1 ha))]

namespace Spec.LeftOut

variable {p : List (Option ℚ)} {sp spF : Space}

/-- The fixed model columns. -/
abbrev pm (p : List (Option ℚ)) (sp : Space) : List (Option ℚ) := colPinned p (sp.expanded.map EVar.kind)

theorem rel (h : LeftOut p sp spF) : Pinned p sp.expanded spF.expanded := by
  obtain ⟨config, cs, hsp⟩ := h.built
  exact pinned_single h.single h.kinds fun v hv =>
    ⟨space_noBandit hsp h.noBandit v.kind (List.mem_map_of_mem hv), h.domains v.kind (List.mem_map_of_mem hv)⟩

theorem length_eq (h : LeftOut p sp spF) : p.length = sp.kinds.length := h.single.length_eq

theorem free_length (h : LeftOut p sp spF) : spF.kinds.length = (p.filter Option.isNone).length := by
  rw [← h.rel.free_length]
  simp [Space.kinds]

theorem domains' (h : LeftOut p sp spF) : ∀ k ∈ spF.kinds, NonEmptyDom k := by
  intro k hk
  refine h.domains k ?_
  rw [h.kinds] at hk
  have : ∀ {q : List (Option ℚ)} {l : List Kind}, k ∈ unpinned q l → k ∈ l := by
    intro q
    induction q with
    | nil => intro l hk; cases l <;> simp [unpinned] at hk
    | cons a q ih =>
      intro l hk
      cases l with
      | nil => cases a <;> simp [unpinned] at hk
      | cons b l =>
        cases a with
        | none =>
          simp only [unpinned, List.mem_cons] at hk
          rcases hk with rfl | hk
          · simp
          · simp [ih hk]
        | some v =>
          simp only [unpinned] at hk
          simp [ih hk]
  exact this hk

theorem modelDim_pos' {config : List Desc} {cs : Option (List ConstrDict)} {s : Space}
    (hs : designSpace config cs = .ok s) (hb : s.hasBandit = false) (hd : ∀ k ∈ s.kinds, NonEmptyDom k)
    (hne : s.kinds ≠ []) : 0 < s.modelDim := by
  have hnb := space_noBandit hs hb
  rw [modelDim_eq]
  cases hk : s.kinds with
  | nil => exact absurd hk hne
  | cons k ks =>
    rw [hk] at hd hnb
    have h1 := hd k (by simp)
    have : 0 < width k := by
      cases k with
      | continuous _ _ => simp [width]
      | discrete _ => simp [width]
      | categorical l => exact List.length_pos_iff.2 h1
      | bandit a => exact absurd rfl (hnb _ (by simp) a)
    simp only [List.map_cons, List.sum_cons]
    omega

theorem kinds_ne (h : LeftOut p sp spF) : sp.kinds ≠ [] := by
  intro h0
  apply h.free
  rw [h.kinds, h0]
  cases p with
  | nil => rfl
  | cons a p => cases a <;> rfl

theorem fill_cols_length (h : LeftOut p sp spF) {x : Vec} (hx : x.length = spF.modelDim) :
    (fill (pm p sp) x).length = sp.modelDim := by
  rw [Smaller.modelDim_cols] at hx ⊢
  exact h.rel.fill_cols_length hx

/-! ### Designs -/

theorem indicator (h : LeftOut p sp spF) {X : Mat} (hX : ∀ r ∈ X, r.length = spF.kinds.length) :
    sp.indicatorConstraints (X.map (fill p)) = spF.indicatorConstraints X := by
  obtain ⟨config, cs, hd'⟩ := h.built
  obtain ⟨config', cs', hd⟩ := h.built'
  have h1 := OtherUnits.constraints_fixed hd
  have h2 := OtherUnits.constraints_fixed hd'
  have hc := h.constraints
  unfold Space.indicatorConstraints
  generalize spF.constraints = c at hc h1 ⊢
  generalize sp.constraints = c' at hc h2 ⊢
  cases hc with
  | none => simp [Function.comp_def]
  | @some l l' hcs =>
    simp only
    have h1' := h1 l rfl
    have h2' := h2 l' rfl
    rw [List.map_map]
    change applyConstrs l' (X.map (fill p)) (X.map fun _ => 1) = _
    generalize (X.map fun _ => (1 : ℚ)) = w
    clear h1 h2
    induction hcs generalizing w with
    | nil => rfl
    | @cons c c' cs cs' hcc _ ih =>
      have key : applyConstr c' (X.map (fill p)) w = applyConstr c X w := by
        unfold SameThrough at hcc
        rw [h1' c (by simp), h2' c' (by simp)] at hcc
        unfold applyConstr
        cases e1 : c.constraint with
        | none =>
          cases e2 : c'.constraint with
          | none => rfl
          | some g => rw [e1, e2] at hcc; exact hcc.elim
        | some f =>
          cases e2 : c'.constraint with
          | none => rw [e1, e2] at hcc; exact hcc.elim
          | some g =>
            rw [e1, e2] at hcc
            simp only at hcc ⊢
            have := OtherUnits.mapE_conv (f := f) (f' := g) (g := fill p) (k := id) X fun x hx => by
              rw [hcc x (hX x hx)]
              cases f x <;> rfl
            rw [this]
            cases mapE f X <;> simp
      simp only [applyConstrs, key]
      cases applyConstr c X w with
      | error e => rfl
      | ok w' => exact ih (fun c hc => h1' c (by simp [hc])) (fun c hc => h2' c (by simp [hc])) w'

theorem hasConstraints (h : LeftOut p sp spF) : sp.hasConstraints = spF.hasConstraints := by
  have hc := h.constraints
  unfold Space.hasConstraints
  generalize spF.constraints = c at hc ⊢
  generalize sp.constraints = c' at hc ⊢
  cases hc <;> rfl

theorem designRow (h : LeftOut p sp spF) {d d' : Draw} {r : Nat} (g : ℚ × ℚ → ℚ → ℚ) {u u' : Nat → ℚ}
    (hg : ∀ v w, g (v, v) w = v)
    (hch : ∀ i : Nat, p[i]? = some none → d'.choice i r = d.choice (freeBefore p i) r)
    (hu : ∀ (i : Nat) lo hi, p[i]? = some none → sp.kinds[i]? = some (.continuous lo hi) →
      u' (contBefore sp.kinds i) = u (contBefore (unpinned p sp.kinds) (freeBefore p i)))
    {des des' : Nat → Vec} (hdes : des r = spF.getContinuousBounds.mapIdx fun c b => g b (u c))
    (hdes' : des' r = sp.getContinuousBounds.mapIdx fun c b => g b (u' c)) :
    ∃ row : Vec, row.length = spF.kinds.length ∧ GPyOpt.designRow spF d des r = .ok row ∧
      GPyOpt.designRow sp d' des' r = .ok (fill p row) := by
  obtain ⟨config', cs', hsp'⟩ := h.built
  obtain ⟨config, cs, hsp⟩ := h.built'
  have e1 := designRow_list hsp h.noBandit' h.domains' d des r (by rw [hdes]; simp)
  have e2 := designRow_list hsp' h.noBandit h.domains d' des' r (by rw [hdes']; simp)
  refine ⟨_, rowList_length _ _ _ _, e1, ?_⟩
  rw [e2]
  congr 1
  refine List.ext_getElem? fun i => ?_
  rw [fill_get (by rw [rowList_length, h.free_length]), hdes, hdes', getContinuousBounds_eq hsp h.noBandit',
    getContinuousBounds_eq hsp' h.noBandit, rowList_get]
  cases hp : p[i]? with
  | none =>
    have : sp.kinds[i]? = none := by
      rw [List.getElem?_eq_none_iff] at hp ⊢
      rwa [← h.length_eq]
    rw [this]
    rfl
  | some a =>
    have hi : i < sp.kinds.length := by
      rw [← h.length_eq]; exact (List.getElem?_eq_some_iff.1 hp).1
    have hk : sp.kinds[i]? = some sp.kinds[i] := List.getElem?_eq_getElem hi
    cases a with
    | some v =>
      rw [hk]
      simp only [Option.map_some, Nat.zero_add, Option.some.injEq]
      have hone : OneValue sp.kinds[i] v := by
        have := (List.forall₂_iff_get.1 h.single).2 i (List.getElem?_eq_some_iff.1 hp).1 hi v
        simp only [List.get_eq_getElem] at this
        exact this (List.getElem?_eq_some_iff.1 hp).2
      revert hone
      generalize sp.kinds[i] = k
      intro hone
      cases k with
      | continuous lo hi => obtain ⟨rfl, rfl⟩ := hone; simp only [cellOf, hg]
      | discrete l => exact oneValue_choice hone.1 hone.2 _
      | categorical l =>
        obtain ⟨rfl, rfl⟩ := hone
        exact oneValue_choice (by simp) (by simp) _
      | bandit a => exact hone.elim
    | none =>
      simp only
      rw [h.kinds, rowList_get, unpinned_get h.length_eq hp, hk]
      simp only [Option.map_some, Nat.zero_add, Option.some.injEq]
      cases hki : sp.kinds[i] with
      | continuous lo hi => simp only [cellOf]; rw [hu i lo hi hp (by rw [hk, hki])]
      | discrete l => simp only [cellOf, hch i hp]
      | categorical l => simp only [cellOf, hch i hp]
      | bandit a => rfl

theorem mapE_designRow (h : LeftOut p sp spF) {d d' : Draw} (g : ℚ × ℚ → ℚ → ℚ) {u u' : Nat → Nat → ℚ}
    (hg : ∀ v w, g (v, v) w = v)
    (hch : ∀ r (i : Nat), p[i]? = some none → d'.choice i r = d.choice (freeBefore p i) r)
    (hu : ∀ r (i : Nat) lo hi, p[i]? = some none → sp.kinds[i]? = some (.continuous lo hi) →
      u' r (contBefore sp.kinds i) = u r (contBefore (unpinned p sp.kinds) (freeBefore p i)))
    {des des' : Nat → Vec} (hdes : ∀ r, des r = spF.getContinuousBounds.mapIdx fun c b => g b (u r c))
    (hdes' : ∀ r, des' r = sp.getContinuousBounds.mapIdx fun c b => g b (u' r c)) (l : List Nat) :
    ∃ X : Mat, (∀ r ∈ X, r.length = spF.kinds.length) ∧ X.length = l.length ∧
      mapE (GPyOpt.designRow spF d des) l = .ok X ∧
      mapE (GPyOpt.designRow sp d' des') l = .ok (X.map (fill p)) := by
  induction l with
  | nil => exact ⟨[], by simp, rfl, rfl, rfl⟩
  | cons r l ih =>
    obtain ⟨X, h1, h2, h3, h4⟩ := ih
    obtain ⟨row, r1, r2, r3⟩ := h.designRow g hg (hch r) (hu r) (hdes r) (hdes' r)
    refine ⟨row :: X, ?_, by simp [h2], by simp [mapE, r2, h3], by simp [mapE, r3, h4]⟩
    intro x hx
    rcases List.mem_cons.1 hx with rfl | hx
    · exact r1
    · exact h1 x hx

theorem randomNoConstr (h : LeftOut p sp spF) {o o' : DesignOracle} (ho : SameFreeDraws p sp.kinds o o') (t n : Nat) :
    ∃ X : Mat, (∀ r ∈ X, r.length = spF.kinds.length) ∧ X.length = n ∧
      GPyOpt.randomNoConstr spF (o.draws t) n = .ok X ∧
      GPyOpt.randomNoConstr sp (o'.draws t) n = .ok (X.map (fill p)) := by
  have := h.mapE_designRow (d := o.draws t) (d' := o'.draws t) (fun b v => b.1 + (b.2 - b.1) * v)
    (u := fun r c => (o.draws t).unif c r) (u' := fun r c => (o'.draws t).unif c r) (fun v w => by simp)
    (fun r => ho.choice t r) (fun r => ho.unif t r) (des := fun r => uniformRow (fun k => (o.draws t).unif k r)
      spF.getContinuousBounds) (des' := fun r => uniformRow (fun k => (o'.draws t).unif k r)
      sp.getContinuousBounds) (fun r => rfl) (fun r => rfl) (List.range n)
  rw [List.length_range] at this
  exact this

theorem selectValid_fill (X : Mat) (w : List ℚ) :
    selectValid (X.map (fill p)) w = (selectValid X w).map (fill p) := by
  unfold selectValid
  rw [List.map_filterMap, List.zip_map_left, List.filterMap_map]
  congr 1
  funext p
  simp only [Function.comp, Prod.map_fst, Prod.map_snd, id]
  split_ifs <;> rfl

theorem constrLoop (h : LeftOut p sp spF) {o o' : DesignOracle} (ho : SameFreeDraws p sp.kinds o o') (n : Nat) :
    ∀ (fuel t : Nat) (S : Mat), (∀ r ∈ S, r.length = spF.kinds.length) →
      GPyOpt.constrLoop sp n o'.draws fuel t (S.map (fill p))
        = (GPyOpt.constrLoop spF n o.draws fuel t S).map (List.map (fill p)) ∧
      ∀ Y, GPyOpt.constrLoop spF n o.draws fuel t S = .ok Y → ∀ r ∈ Y, r.length = spF.kinds.length := by
  intro fuel
  induction fuel with
  | zero =>
    intro t S hS
    unfold GPyOpt.constrLoop
    rw [List.length_map]
    split_ifs
    · exact ⟨rfl, fun Y hY => by cases hY⟩
    · refine ⟨by simp, fun Y hY => ?_⟩
      cases hY
      exact fun r hr => hS r (List.mem_of_mem_take hr)
  | succ fuel ih =>
    intro t S hS
    unfold GPyOpt.constrLoop
    rw [List.length_map]
    split_ifs
    · obtain ⟨X, h1, -, h3, h4⟩ := h.randomNoConstr ho t n
      simp only [h3, h4, h.indicator h1]
      cases spF.indicatorConstraints X with
      | error e => exact ⟨rfl, fun Y hY => by cases hY⟩
      | ok w =>
        simp only
        rw [selectValid_fill, ← List.map_append]
        refine ih (t + 1) _ ?_
        intro r hr
        rcases List.mem_append.1 hr with hr | hr
        · exact hS r hr
        · unfold selectValid at hr
          obtain ⟨q, hq, hq2⟩ := List.mem_filterMap.1 hr
          split_ifs at hq2
          cases hq2
          exact h1 _ (List.of_mem_zip hq).1
    · refine ⟨by simp, fun Y hY => ?_⟩
      cases hY
      exact fun r hr => hS r (List.mem_of_mem_take hr)

theorem designs (h : LeftOut p sp spF) {o o' : DesignOracle} (ho : SameFreeDraws p sp.kinds o o') (n : Nat) {t : String}
    (ht : t = "random" ∨ t = "latin" ∨ t = "sobol") :
    initialDesign t sp o' n = (initialDesign t spF o n).map (List.map (fill p)) ∧
      ∀ X, initialDesign t spF o n = .ok X → ∀ r ∈ X, r.length = spF.kinds.length := by
  rcases ht with rfl | rfl | rfl
  · simp only [initialDesign, if_true, randomDesign, h.hasConstraints]
    split_ifs
    · have := h.constrLoop ho n o.fuel 0 [] (by simp)
      rw [List.map_nil] at this
      rw [ho.fuel]
      exact this
    · obtain ⟨X, h1, -, h3, h4⟩ := h.randomNoConstr ho 0 n
      rw [h3, h4]
      exact ⟨rfl, fun Y hY => by cases hY; exact h1⟩
  · have hl : ∀ (sp : Space) (o : DesignOracle), initialDesign "latin" sp o n = latinDesign sp (o.draws 0) o.lhs n :=
      fun _ _ => by simp [initialDesign]
    rw [hl, hl]
    unfold latinDesign
    rw [h.hasConstraints]
    split_ifs
    · exact ⟨rfl, fun Y hY => by cases hY⟩
    · obtain ⟨X, h1, -, h3, h4⟩ := h.mapE_designRow (d := o.draws 0) (d' := o'.draws 0)
        (fun b v => b.1 + v * (b.2 - b.1)) (u := o.lhs) (u' := o'.lhs) (fun v w => by simp) (ho.choice 0) ho.lhs
        (des := fun r => spF.getContinuousBounds.mapIdx fun k b => b.1 + o.lhs r k * (b.2 - b.1))
        (des' := fun r => sp.getContinuousBounds.mapIdx fun k b => b.1 + o'.lhs r k * (b.2 - b.1))
        (fun r => rfl) (fun r => rfl) (List.range n)
      rw [h3, h4]
      exact ⟨rfl, fun Y hY => by cases hY; exact h1⟩
  · have hl : ∀ (sp : Space) (o : DesignOracle), initialDesign "sobol" sp o n = sobolDesign sp (o.draws 0) o.sobol n :=
      fun _ _ => by simp [initialDesign]
    rw [hl, hl]
    unfold sobolDesign
    rw [h.hasConstraints]
    split_ifs
    · exact ⟨rfl, fun Y hY => by cases hY⟩
    · obtain ⟨X, h1, -, h3, h4⟩ := h.mapE_designRow (d := o.draws 0) (d' := o'.draws 0)
        (fun b v => v * (b.2 - b.1) + b.1) (u := o.sobol) (u' := o'.sobol) (fun v w => by simp) (ho.choice 0) ho.sobol
        (des := fun r => spF.getContinuousBounds.mapIdx fun k b => o.sobol r k * (b.2 - b.1) + b.1)
        (des' := fun r => sp.getContinuousBounds.mapIdx fun k b => o'.sobol r k * (b.2 - b.1) + b.1)
        (fun r => rfl) (fun r => rfl) (List.range n)
      rw [h3, h4]
      exact ⟨rfl, fun Y hY => by cases hY; exact h1⟩

theorem sameUnzip (h : LeftOut p sp spF) :
    SameUnzip spF.expanded.length (fill (pm p sp)) (fill p) spF sp := by
  intro X hX
  simp only [Space.unzipInputs, h.noBandit, h.noBandit', Bool.false_eq_true, if_false]
  have := OtherUnits.mapE_conv (f := spF.objectiveToModel) (f' := sp.objectiveToModel)
    (g := fill p) (k := fill (pm p sp)) X fun x hx => by
      have := h.rel.toModel [] [] [] [] x (hX.2 x hx)
      simpa [sp.objectiveToModel_of h.noBandit, spF.objectiveToModel_of h.noBandit'] using this
  rw [this]
  cases hm' : mapE spF.objectiveToModel X with
  | error e => rfl
  | ok m' =>
    have hl' := mapE_length hm'
    cases m' with
    | nil => exact absurd (List.length_eq_zero_iff.1 hl'.symm) hX.1
    | cons a m' => rfl

theorem sameStopped (h : LeftOut p sp spF) (eps : ℚ) : SameStopped spF.expanded.length (fill p) eps eps := by
  intro X hX
  unfold lastTwoClose
  rw [← List.map_reverse]
  cases hr : X.reverse with
  | nil => rfl
  | cons x l =>
    cases l with
    | nil => rfl
    | cons y l =>
      have hx := hX.2 x (List.mem_reverse.1 (by rw [hr]; simp))
      have hy := hX.2 y (List.mem_reverse.1 (by rw [hr]; simp))
      simp only [List.map_cons, Smaller.rowSqDist_fill h.rel x y hx hy]

/-- Both context managers exist. -/
theorem managers (h : LeftOut p sp spF) : ∃ c cF, GPyOpt.contextManager sp none = .ok c ∧
    GPyOpt.contextManager spF none = .ok cF := by
  obtain ⟨config, cs, hsp⟩ := h.built
  obtain ⟨config', cs', hspF⟩ := h.built'
  obtain ⟨c, -, hc, -⟩ := C23_context_partition hsp h.noBandit
    (fun k hk => h.domains k (by rw [space_kinds_eq hsp]; exact hk)) none ⟨by simp, by simp⟩
  obtain ⟨cF, -, hcF, -⟩ := C23_context_partition hspF h.noBandit'
    (fun k hk => h.domains' k (by rw [space_kinds_eq hspF]; exact hk)) none ⟨by simp, by simp⟩
  exact ⟨c, cF, hc, hcF⟩

theorem samples (h : LeftOut p sp spF) {c cF : Ctx} (hc : GPyOpt.contextManager sp none = .ok c)
    (hcF : GPyOpt.contextManager spF none = .ok cF) {unique : Bool} {t : String}
    (ht : t = "random" ∨ t = "latin" ∨ t = "sobol") (n : Nat) {o o' : DesignOracle}
    (ho : SameFreeDraws p sp.kinds o o') :
    anchorSamples sp (some c) unique t n o'
      = (anchorSamples spF (some cF) unique t n o).map (List.map (fill (pm p sp))) := by
  obtain ⟨config, cs, hsp⟩ := h.built
  obtain ⟨config', cs', hspF⟩ := h.built'
  obtain ⟨h1, h2⟩ := h.designs ho n ht
  rw [anchorSamples_free hsp h.noBandit (modelDim_pos' hsp h.noBandit h.domains h.kinds_ne) hc,
    anchorSamples_free hspF h.noBandit' (modelDim_pos' hspF h.noBandit' h.domains' h.free) hcF, h1]
  cases hX : initialDesign t spF o n with
  | error e => rfl
  | ok X =>
    have hl := h2 X hX
    simp only [Except_map_ok, List.map_eq_nil_iff]
    by_cases h0 : X = []
    · rw [if_pos h0, if_pos h0]; rfl
    · rw [if_neg h0, if_neg h0]
      have hl' : ∀ r ∈ X, r.length = spF.expanded.length := fun r hr =>
        (hl r hr).trans (Arranged.expanded_length spF).symm
      cases unique with
      | false => exact h.sameUnzip X ⟨h0, hl'⟩
      | true =>
        simp only [if_true]
        rw [sortedUnique_fill fun r hr => (hl r hr).trans h.free_length]
        refine h.sameUnzip _ ⟨?_, fun r hr => hl' r (mem_sortedUnique.1 hr)⟩
        intro h00
        cases X with
        | nil => exact h0 rfl
        | cons r X =>
          have : r ∈ sortedUnique (r :: X) := mem_sortedUnique.2 (by simp)
          rw [h00] at this
          simp at this

/-- Leaving out variables with one value: the suggestions correspond. -/
theorem corr (h : LeftOut p sp spF) {c cF : Ctx} (hc : GPyOpt.contextManager sp none = .ok c)
    (hcF : GPyOpt.contextManager spF none = .ok cF) :
    Corr spF cF sp c (fill (pm p sp)) (fill (pm p sp)) (fill p) (SameFreeDraws p sp.kinds)
      (fun _ t => t = "random" ∨ t = "latin" ∨ t = "sobol") (fun _ => True)
      fun x => x.length = spF.modelDim := by
  obtain ⟨config, cs, hsp⟩ := h.built
  obtain ⟨config', cs', hspF⟩ := h.built'
  obtain ⟨e1, -, e3⟩ := expand_self hspF h.noBandit' hcF
  obtain ⟨-, -, f3⟩ := expand_self hsp h.noBandit hc
  have hrd : ∀ x : Vec, x.length = spF.modelDim → ∃ r : Vec, r.length = spF.modelDim ∧
      spF.roundOptimum2d [x] = .ok [r] ∧
      sp.roundOptimum2d [fill (pm p sp) x] = .ok [fill (pm p sp) r] := by
    intro x hx
    have hx' := hx
    rw [Smaller.modelDim_cols] at hx'
    obtain ⟨rs, Rs, r1, r2, r3, r4, r5, r6⟩ := h.rel.round [] [] [] [] x hx'
    simp only [List.nil_append, List.append_nil, List.length_nil] at r1 r2
    have hne : spF.expanded ≠ [] := by
      intro h0; exact h.free (by simp [Space.kinds, h0])
    have hrs : rs ≠ [] := by
      rintro rfl; exact hne (List.length_eq_zero_iff.1 r4.symm)
    have hRs : Rs ≠ [] := by
      rintro rfl
      have h0 := List.length_eq_zero_iff.1 r5.symm
      exact h.kinds_ne (by simp [Space.kinds, h0])
    refine ⟨rs.flatten, by rw [Smaller.modelDim_cols]; exact r3, ?_, ?_⟩
    · simp only [Space.roundOptimum2d, Space.roundOptimum, r1, GPyOpt.concatPieces_flat hrs]
    · simp only [Space.roundOptimum2d, Space.roundOptimum, r2, GPyOpt.concatPieces_flat hRs, r6]
  refine ⟨h.noBandit', ?_, fun _ _ _ _ _ _ _ _ hX => Corr.samples_length h.noBandit' hX, fun _ hx => hx, ?_, ?_, ?_,
    ?_, fun _ _ _ _ _ _ _ => trivial, ?_, ?_⟩
  · intro unique t n o o' ht ho
    exact h.samples hc hcF ht n ho
  · intro x hx
    rw [(e3 x hx).2, (f3 _ (h.fill_cols_length hx)).2]
    rfl
  · intro x hx
    rw [e1] at hx
    rw [(e3 x hx).1, (f3 _ (h.fill_cols_length hx)).1]
    rfl
  · intro x hx _
    obtain ⟨r, -, r1, r2⟩ := hrd x hx
    rw [r1, r2]
    rfl
  · intro x m hx _ hm
    obtain ⟨r, r0, r1, -⟩ := hrd x hx
    rw [r1] at hm
    cases hm
    simpa using r0
  · intro m hm hl
    simp only [Space.zipInputs, h.noBandit, h.noBandit', Bool.false_eq_true, if_false]
    have := OtherUnits.mapE_conv (f := spF.modelToObjective) (f' := sp.modelToObjective)
      (g := fill (pm p sp)) (k := fill p) m fun x hx => by
        have hx' := hl x hx
        rw [Smaller.modelDim_cols] at hx'
        have := h.rel.toObjective [] [] [] [] x hx'
        simpa [Space.modelToObjective] using this
    rw [this]
    cases hm' : mapE spF.modelToObjective m with
    | error e => rfl
    | ok m' =>
      have hl' := mapE_length hm'
      cases m' with
      | nil => exact absurd (List.length_eq_zero_iff.1 hl'.symm) hm
      | cons a m' => rfl
  · intro x y hx hy he
    have := congrArg (unpinned p) he
    rwa [h.rel.unpin_fill x hx, h.rel.unpin_fill y hy] at this

end Spec.LeftOut

end GPyOpt
