import Verif.Lemmas.VarOrder
import Verif.Lemmas.CorrRun

/-! # Lemmas about the order of the variables: problems -/

namespace GPyOpt

open Spec Props

theorem designSpace_constraints_again {config : List Desc} {cs : Option (List ConstrDict)} {sp : Space}
    (h : designSpace config cs = .ok sp) : designSpace config sp.constraints = .ok sp := by
  obtain ⟨_, -, -, -, -, -, hc⟩ := designSpace_ok h
  have h2 : (cs.map (List.map fixConstr)).map (List.map fixConstr) = cs.map (List.map fixConstr) := by
    cases cs with
    | none => rfl
    | some cs =>
      simp only [Option.map_some, List.map_map, Option.some.injEq]
      exact List.map_congr_left fun c _ => fixConstr_idem c
  rw [hc]
  unfold designSpace at h ⊢
  cases h1 : translateSpace config with
  | error e => simp [h1] at h
  | ok vars =>
    cases h3 : expandConfig config with
    | error e => simp [h1, h3] at h
    | ok configX =>
      simp only [h1, h3, Except.ok.injEq] at h ⊢
      rw [h2]
      exact h

theorem objectiveToModelFrom_row {x : Vec} : ∀ {vs : List EVar} {i : Nat} {r : Vec},
    objectiveToModelFrom x i vs = .ok r → r.length = (vs.map fun v => v.kind.dimInModel).sum := by
  intro vs
  induction vs with
  | nil => intro i r h; cases h; rfl
  | cons v vs ih =>
    intro i r h
    unfold objectiveToModelFrom at h
    split at h
    · cases h
    · split at h
      · cases h
      · rename_i e he
        split at h
        · cases h
        · rename_i rest hr
          cases h
          simp [ih hr, objectiveToModel_length he, dimInModel_eq_width]

/-- Without a context the samples are the encoded rows of the design. -/
theorem anchorSamples_none {config : List Desc} {cs : Option (List ConstrDict)} {sp : Space}
    (h : designSpace config cs = .ok sp) (hb : sp.hasBandit = false) (hp : 0 < sp.modelDim) {c : Ctx}
    (hc : contextManager sp none = .ok c) (t : String) (n : Nat) (o : DesignOracle) :
    anchorSamples sp (some c) false t n o = match initialDesign t sp o n with
      | .error e => .error e
      | .ok X => if X = [] then .error .valueError else sp.unzipInputs X := by
  obtain ⟨ds, spA, a1, a2, a3, a4⟩ := anchorSpace_ok h hb hc
  obtain ⟨e1, e2, e3⟩ := expand_self h hb hc
  rw [e2, keep_all _ (fun _ => rfl)] at a4
  obtain ⟨d1, d2, d3⟩ := sameKinds_design (designSpace_constraints_again h) a2 hb a3 a4
  unfold anchorSamples
  rw [a1]
  simp only [d1, d2]
  cases initialDesign t sp o n with
  | error e => rfl
  | ok X =>
    simp only [Bool.false_eq_true, if_false]
    by_cases hX : X = []
    · subst hX
      have : sp.unzipInputs [] = .ok [[]] := by simp [Space.unzipInputs, hb, mapE, atleast2d, Except.map]
      rw [this, if_pos rfl]
      have h0 : c.noncontextIndex ≠ [] := by
        intro h0; rw [h0] at e1; simp at e1; omega
      simp [mapE, addContext, Ctx.expandVector, scatterB_nil h0]
    · rw [if_neg hX]
      cases hu : sp.unzipInputs X with
      | error e => rfl
      | ok m =>
        simp only
        have hm : ∀ r ∈ m, r.length = sp.modelDim := by
          intro r hr
          rcases d3 X m hu r hr with h1 | rfl
          · exact h1
          · -- an empty row comes only from an empty design
            exfalso
            simp only [Space.unzipInputs, hb, Bool.false_eq_true, if_false] at hu
            obtain ⟨m', hm', rfl⟩ := Except_map_eq_ok.1 hu
            have hl := mapE_length hm'
            have hne : m' ≠ [] := by
              rintro rfl; exact hX (List.length_eq_zero_iff.1 hl.symm)
            have : atleast2d m' = m' := by cases m' with
              | nil => exact absurd rfl hne
              | cons _ _ => rfl
            rw [this] at hr
            obtain ⟨x, -, hx2⟩ := mapE_ok_mem hm' hr
            have := objectiveToModelFrom_row (sp.objectiveToModel_of hb x ▸ hx2)
            simp only [Space.modelDim] at hp
            simp only [List.length_nil] at this
            omega
        have : ∀ m : Mat, (∀ r ∈ m, r.length = sp.modelDim) → mapE (addContext (some c) sp) m = .ok m := by
          intro m
          induction m with
          | nil => intro _; rfl
          | cons r m ih =>
            intro hm
            have := ih fun r hr => hm r (by simp [hr])
            simp [mapE, addContext, (e3 r (hm r (by simp))).1, this]
        exact this m hm

namespace Spec.Arranged

variable {σ : List Nat} {sp sp' : Space}

theorem order' (h : Arranged σ sp sp') {n : Nat} (hn : n = sp.kinds.length) : σ.Perm (List.range n) := by
  rw [hn]; exact h.order

theorem expanded_length (sp : Space) : sp.expanded.length = sp.kinds.length := by simp [Space.kinds]

theorem kinds_length (h : Arranged σ sp sp') : sp'.kinds.length = sp.kinds.length := by
  rw [h.kinds, arrange_length h.order]

theorem domains' (h : Arranged σ sp sp') : ∀ k ∈ sp'.kinds, NonEmptyDom k := by
  intro k hk
  rw [h.kinds] at hk
  exact h.domains k ((arrange_perm h.order).mem_iff.1 hk)

theorem modelDim (h : Arranged σ sp sp') : sp'.modelDim = sp.modelDim := by
  rw [modelDim_eq, modelDim_eq, h.kinds]
  exact ((arrange_perm h.order).map width).sum_eq

theorem modelDim_pos (h : Arranged σ sp sp') : 0 < sp.modelDim := by
  obtain ⟨config, cs, hsp⟩ := h.built
  have hnb := space_noBandit hsp h.noBandit
  rw [modelDim_eq]
  have hd := h.domains
  have hne := h.nonempty
  cases hk : sp.kinds with
  | nil => exact absurd hk hne
  | cons k ks =>
    rw [hk] at hd hnb
    have h1 := hd k (by simp)
    have : 0 < width k := by
      cases k with
      | continuous _ _ => simp [width]
      | discrete _ => simp [width]
      | categorical l => exact List.length_pos_iff.2 h1
      | bandit a => exact absurd rfl (hnb _ (by simp) a)
    simp only [List.map_cons, List.sum_cons]
    omega

theorem blocks (h : Arranged σ sp sp') {x : Vec} (hx : x.length = sp.modelDim) :
    ∃ bs, List.Forall₂ (fun k b => b.length = width k) sp.kinds bs ∧ x = bs.flatten ∧
      List.Forall₂ (fun k b => b.length = width k) sp'.kinds (arrange σ bs) ∧
      arrangeCols σ sp.kinds x = (arrange σ bs).flatten := by
  rw [modelDim_eq] at hx
  obtain ⟨h1, h2⟩ := blocksOf_spec _ _ hx
  refine ⟨_, h1, h2.symm, ?_, ?_⟩
  · rw [h.kinds]
    exact arrange_forall₂ h.order h1
  · unfold arrangeCols
    rw [if_pos hx]

theorem arrangeCols_flatten {bs : List Vec}
    (hb : List.Forall₂ (fun k b => b.length = width k) sp.kinds bs) :
    arrangeCols σ sp.kinds bs.flatten = (arrange σ bs).flatten := by
  unfold arrangeCols
  rw [if_pos (flatten_length_width hb), blocksOf_flatten hb]

theorem arrangeCols_length (h : Arranged σ sp sp') (x : Vec) : (arrangeCols σ sp.kinds x).length = x.length := by
  by_cases hx : x.length = sp.modelDim
  · obtain ⟨bs, -, -, h3, h4⟩ := h.blocks hx
    rw [h4, flatten_length_width h3, ← modelDim_eq, h.modelDim, hx]
  · unfold arrangeCols
    rw [if_neg (by rw [← modelDim_eq]; exact hx)]

theorem arrangeCols_perm (h : Arranged σ sp sp') (x : Vec) : (arrangeCols σ sp.kinds x).Perm x := by
  by_cases hx : x.length = sp.modelDim
  · obtain ⟨bs, h1, rfl, h3, h4⟩ := h.blocks hx
    rw [h4]
    exact (arrange_perm (h.order' h1.length_eq.symm)).flatten
  · unfold arrangeCols
    rw [if_neg (by rw [← modelDim_eq]; exact hx)]

theorem toObjective (h : Arranged σ sp sp') {x : Vec} (hx : x.length = sp.modelDim) :
    ∃ z, sp.modelToObjective x = .ok z ∧ sp'.modelToObjective (arrangeCols σ sp.kinds x) = .ok (arrange σ z) := by
  obtain ⟨config, cs, hsp⟩ := h.built
  obtain ⟨config', cs', hsp'⟩ := h.built'
  obtain ⟨bs, h1, h2, h3, h4⟩ := h.blocks hx
  have e1 := modelToObjectiveFrom_blocks (vs := sp.expanded) (space_noBandit hsp h.noBandit) h1 [] []
  have e2 := modelToObjectiveFrom_blocks (vs := sp'.expanded) (space_noBandit hsp' h.noBandit') h3 [] []
  simp only [List.nil_append, List.append_nil, List.length_nil] at e1 e2
  refine ⟨_, by rw [h2]; exact e1, ?_⟩
  rw [h4]
  refine e2.trans ?_
  change Except.ok (List.zipWith decBlock sp'.kinds (arrange σ bs)) = Except.ok (arrange σ (List.zipWith decBlock sp.kinds bs))
  rw [h.kinds, arrange_zipWith _ h1.length_eq.symm h.order]

theorem zip (h : Arranged σ sp sp') {m : Mat} (hm : m ≠ []) (hl : ∀ r ∈ m, r.length = sp.modelDim) :
    sp'.zipInputs (m.map (arrangeCols σ sp.kinds)) = (sp.zipInputs m).map (List.map (arrange σ)) := by
  simp only [Space.zipInputs, h.noBandit, h.noBandit', Bool.false_eq_true, if_false]
  have := OtherUnits.mapE_conv (f := sp.modelToObjective) (f' := sp'.modelToObjective)
    (g := arrangeCols σ sp.kinds) (k := arrange σ) m fun x hx => by
      obtain ⟨z, h1, h2⟩ := h.toObjective (hl x hx)
      rw [h1, h2]
      rfl
  rw [this]
  cases hm' : mapE sp.modelToObjective m with
  | error e => rfl
  | ok m' =>
    have hl' := mapE_length hm'
    cases m' with
    | nil => exact absurd (List.length_eq_zero_iff.1 hl'.symm) hm
    | cons a m' => rfl

theorem round (h : Arranged σ sp sp') {x : Vec} (hx : x.length = sp.modelDim) :
    ∃ r : Vec, r.length = sp.modelDim ∧ sp.roundOptimum2d [x] = .ok [r] ∧
      sp'.roundOptimum2d [arrangeCols σ sp.kinds x] = .ok [arrangeCols σ sp.kinds r] := by
  obtain ⟨config, cs, hsp⟩ := h.built
  obtain ⟨config', cs', hsp'⟩ := h.built'
  have hnb := space_noBandit hsp h.noBandit
  obtain ⟨bs, h1, h2, h3, h4⟩ := h.blocks hx
  have e1 := roundPieces_blocks (vs := sp.expanded) hnb h.domains h1 [] []
  have e2 := roundPieces_blocks (vs := sp'.expanded) (space_noBandit hsp' h.noBandit') h.domains' h3 [] []
  simp only [List.nil_append, List.append_nil, List.length_nil] at e1 e2
  have hk := h.kinds
  have hw : List.Forall₂ (fun k b => b.length = width k) sp.kinds (List.zipWith roundBlock sp.kinds bs) := by
    have hd := h.domains
    clear e1 e2 h2 h3 h4 hk
    revert h1 hd hnb
    generalize sp.kinds = ks
    intro hnb h1 hd
    induction h1 with
    | nil => exact .nil
    | @cons k b ks bs hb _ ih =>
      exact .cons (roundBlock_width (hnb k (by simp)) (hd k (by simp)) hb)
        (ih (fun k hk => hnb k (by simp [hk])) (fun k hk => hd k (by simp [hk])))
  have hne : List.zipWith roundBlock sp.kinds bs ≠ [] := by
    intro h0
    rw [h0] at hw
    exact h.nonempty (List.length_eq_zero_iff.1 hw.length_eq)
  have hz : List.zipWith roundBlock sp'.kinds (arrange σ bs) = arrange σ (List.zipWith roundBlock sp.kinds bs) := by
    rw [hk, arrange_zipWith _ h1.length_eq.symm h.order]
  have hne' : List.zipWith roundBlock sp'.kinds (arrange σ bs) ≠ [] := by
    rw [hz]
    intro h0
    have := (arrange_perm (h.order' hw.length_eq.symm)).length_eq
    rw [h0] at this
    exact hne (List.length_eq_zero_iff.1 this.symm)
  refine ⟨(List.zipWith roundBlock sp.kinds bs).flatten, by rw [flatten_length_width hw, modelDim_eq], ?_, ?_⟩
  · rw [h2]
    simp only [Space.roundOptimum2d, Space.roundOptimum, e1]
    exact GPyOpt.concatPieces_flat hne
  · rw [h4, arrangeCols_flatten hw, ← hz]
    simp only [Space.roundOptimum2d, Space.roundOptimum, e2]
    exact GPyOpt.concatPieces_flat hne'

theorem toModel (h : Arranged σ sp sp') {z : Vec} (hz : z.length = sp.expanded.length) :
    sp'.objectiveToModel (arrange σ z) = (sp.objectiveToModel z).map (arrangeCols σ sp.kinds) := by
  obtain ⟨config, cs, hsp⟩ := h.built
  obtain ⟨config', cs', hsp'⟩ := h.built'
  have hzk : z.length = sp.kinds.length := by rw [hz, expanded_length]
  have hz' : (arrange σ z).length = sp'.expanded.length := by
    rw [arrange_length (h.order' hzk), hz, expanded_length, expanded_length, h.kinds_length]
  have e1 := objectiveToModelFrom_blocks (vs := sp.expanded) (space_noBandit hsp h.noBandit) [] z [] hz
  have e2 := objectiveToModelFrom_blocks (vs := sp'.expanded) (space_noBandit hsp' h.noBandit') [] (arrange σ z) [] hz'
  simp only [List.nil_append, List.append_nil, List.length_nil] at e1 e2
  have hzip : sp'.kinds.zip (arrange σ z) = arrange σ (sp.kinds.zip z) := by
    rw [h.kinds]
    exact (arrange_zipWith Prod.mk hzk h.order).symm
  have hlen : (sp.kinds.zip z).length = sp.kinds.length := by simp [hzk]
  have hp := arrange_perm (h.order' hlen)
  rw [← sp.objectiveToModel_of h.noBandit] at e1
  rw [← sp'.objectiveToModel_of h.noBandit'] at e2
  change (∃ bs, List.Forall₂ _ (sp.kinds.zip z) bs ∧ sp.objectiveToModel z = _) ∨
    (∃ kx ∈ sp.kinds.zip z, _) ∧ sp.objectiveToModel z = _ at e1
  change (∃ bs, List.Forall₂ _ (sp'.kinds.zip _) bs ∧ sp'.objectiveToModel (arrange σ z) = _) ∨
    (∃ kx ∈ sp'.kinds.zip _, _) ∧ sp'.objectiveToModel (arrange σ z) = _ at e2
  rw [hzip] at e2
  rcases e1 with ⟨bs, f1, f2⟩ | ⟨⟨kx, f1, f2⟩, f3⟩
  · rcases e2 with ⟨bs', g1, g2⟩ | ⟨⟨kx, g1, g2⟩, g3⟩
    · have f1' := arrange_forall₂ (h.order' hlen) f1
      have : bs' = arrange σ bs := by
        have huniq : ∀ {l : List (Kind × ℚ)} {a b : List Vec}, List.Forall₂ (fun kx b => encBlock kx.1 kx.2 = some b) l a →
            List.Forall₂ (fun kx b => encBlock kx.1 kx.2 = some b) l b → a = b := by
          intro l a b ha
          induction ha generalizing b with
          | nil => intro hb; cases hb; rfl
          | cons h1 _ ih =>
            intro hb
            cases hb with
            | cons h2 h3 =>
              rw [h1] at h2
              cases h2
              rw [ih h3]
        exact huniq g1 f1'
      have hw : List.Forall₂ (fun k b => b.length = width k) sp.kinds bs := by
        rw [List.forall₂_iff_get] at f1 ⊢
        refine ⟨by rw [← f1.1, hlen], fun i h1 h2 => ?_⟩
        have := f1.2 i (by rw [hlen]; exact h1) h2
        simp only [List.get_eq_getElem, List.getElem_zip] at this ⊢
        exact encBlock_width this
      rw [f2, g2, this, Except_map_ok, arrangeCols_flatten hw]
    · obtain ⟨b, -, hb⟩ := forall₂_mem_left f1 (hp.mem_iff.1 g1)
      rw [g2] at hb
      cases hb
  · rcases e2 with ⟨bs', g1, g2⟩ | ⟨-, g3⟩
    · obtain ⟨b, -, hb⟩ := forall₂_mem_left g1 (hp.mem_iff.2 f1)
      rw [f2] at hb
      cases hb
    · rw [f3, g3]; rfl

theorem sameUnzip (h : Arranged σ sp sp') :
    SameUnzip sp.expanded.length (arrangeCols σ sp.kinds) (arrange σ) sp sp' := by
  intro X hX
  simp only [Space.unzipInputs, h.noBandit, h.noBandit', Bool.false_eq_true, if_false]
  have := OtherUnits.mapE_conv (f := sp.objectiveToModel) (f' := sp'.objectiveToModel)
    (g := arrange σ) (k := arrangeCols σ sp.kinds) X fun x hx => h.toModel (hX.2 x hx)
  rw [this]
  cases hm' : mapE sp.objectiveToModel X with
  | error e => rfl
  | ok m' =>
    have hl' := mapE_length hm'
    cases m' with
    | nil => exact absurd (List.length_eq_zero_iff.1 hl'.symm) hX.1
    | cons a m' => rfl

theorem sameStopped (h : Arranged σ sp sp') (eps : ℚ) : SameStopped sp.expanded.length (arrange σ) eps eps := by
  intro X hX
  have hd : ∀ x y : Vec, x.length = sp.expanded.length → y.length = sp.expanded.length →
      rowSqDist (arrange σ x) (arrange σ y) = rowSqDist x y := by
    intro x y hx hy
    rw [expanded_length] at hx hy
    unfold rowSqDist
    rw [← arrange_zipWith _ (by rw [hx, hy]) (h.order' hx), ← arrange_map]
    exact (arrange_perm (h.order' (by simp [hx, hy]))).sum_eq
  unfold lastTwoClose
  rw [← List.map_reverse]
  cases hr : X.reverse with
  | nil => rfl
  | cons x l =>
    cases l with
    | nil => rfl
    | cons y l =>
      have hx := hX.2 x (List.mem_reverse.1 (by rw [hr]; simp))
      have hy := hX.2 y (List.mem_reverse.1 (by rw [hr]; simp))
      simp only [List.map_cons, hd x y hx hy]

/-! ### Designs -/

theorem indicator (h : Arranged σ sp sp') {X : Mat} (hX : ∀ r ∈ X, r.length = sp.kinds.length) :
    sp'.indicatorConstraints (X.map (arrange σ)) = sp.indicatorConstraints X := by
  obtain ⟨config, cs, hd⟩ := h.built
  obtain ⟨config', cs', hd'⟩ := h.built'
  have h1 := OtherUnits.constraints_fixed hd
  have h2 := OtherUnits.constraints_fixed hd'
  have hc := h.constraints
  unfold Space.indicatorConstraints
  generalize sp.constraints = c at hc h1 ⊢
  generalize sp'.constraints = c' at hc h2 ⊢
  cases hc with
  | none => simp [Function.comp_def]
  | @some l l' hcs =>
    simp only
    have h1' := h1 l rfl
    have h2' := h2 l' rfl
    rw [List.map_map]
    change applyConstrs l' (X.map (arrange σ)) (X.map fun _ => 1) = _
    generalize (X.map fun _ => (1 : ℚ)) = w
    clear h1 h2
    induction hcs generalizing w with
    | nil => rfl
    | @cons c c' cs cs' hcc _ ih =>
      have key : applyConstr c' (X.map (arrange σ)) w = applyConstr c X w := by
        unfold SameExpr at hcc
        rw [h1' c (by simp), h2' c' (by simp)] at hcc
        unfold applyConstr
        cases e1 : c.constraint with
        | none =>
          cases e2 : c'.constraint with
          | none => rfl
          | some g => rw [e1, e2] at hcc; exact hcc.elim
        | some f =>
          cases e2 : c'.constraint with
          | none => rw [e1, e2] at hcc; exact hcc.elim
          | some g =>
            rw [e1, e2] at hcc
            simp only at hcc ⊢
            have := OtherUnits.mapE_conv (f := f) (f' := g) (g := arrange σ) (k := id) X fun x hx => by
              rw [hcc x (hX x hx)]
              cases f x <;> rfl
            rw [this]
            cases mapE f X <;> simp
      simp only [applyConstrs, key]
      cases applyConstr c X w with
      | error e => rfl
      | ok w' => exact ih (fun c hc => h1' c (by simp [hc])) (fun c hc => h2' c (by simp [hc])) w'

theorem hasConstraints (h : Arranged σ sp sp') : sp'.hasConstraints = sp.hasConstraints := by
  have hc := h.constraints
  unfold Space.hasConstraints
  generalize sp.constraints = c at hc ⊢
  generalize sp'.constraints = c' at hc ⊢
  cases hc <;> rfl

theorem designRow (h : Arranged σ sp sp') {d d' : Draw} {r : Nat} (g : ℚ × ℚ → ℚ → ℚ) {u u' : Nat → ℚ}
    (hch : ∀ i' i : Nat, σ[i']? = some i → d'.choice i' r = d.choice i r)
    (hu : ∀ (i' i : Nat) lo hi, σ[i']? = some i → sp.kinds[i]? = some (.continuous lo hi) →
      u' (contBefore (arrange σ sp.kinds) i') = u (contBefore sp.kinds i))
    {des des' : Nat → Vec} (hdes : des r = sp.getContinuousBounds.mapIdx fun c b => g b (u c))
    (hdes' : des' r = sp'.getContinuousBounds.mapIdx fun c b => g b (u' c)) :
    ∃ row : Vec, row.length = sp.kinds.length ∧ GPyOpt.designRow sp d des r = .ok row ∧
      GPyOpt.designRow sp' d' des' r = .ok (arrange σ row) := by
  obtain ⟨config, cs, hsp⟩ := h.built
  obtain ⟨config', cs', hsp'⟩ := h.built'
  have e1 := designRow_list hsp h.noBandit h.domains d des r (by rw [hdes]; simp)
  have e2 := designRow_list hsp' h.noBandit' h.domains' d' des' r (by rw [hdes']; simp)
  refine ⟨_, rowList_length _ _ _ _, e1, ?_⟩
  rw [e2]
  congr 1
  apply arrange_ext
  · rw [rowList_length]; exact h.order
  · rw [rowList_length, rowList_length, h.kinds_length]
  · intro j i hj
    rw [hdes, hdes', getContinuousBounds_eq hsp h.noBandit, getContinuousBounds_eq hsp' h.noBandit',
      rowList_get, rowList_get, h.kinds, arrange_get h.order, hj]
    simp only [Option.bind_some, Nat.zero_add]
    cases hk : sp.kinds[i]? with
    | none => rfl
    | some k =>
      simp only [Option.map_some, Option.some.injEq]
      cases k with
      | continuous lo hi => simp only [cellOf, hu j i lo hi hj hk]
      | discrete l => simp only [cellOf, hch j i hj]
      | categorical l => simp only [cellOf, hch j i hj]
      | bandit a => rfl

theorem mapE_designRow (h : Arranged σ sp sp') {d d' : Draw} (g : ℚ × ℚ → ℚ → ℚ) {u u' : Nat → Nat → ℚ}
    (hch : ∀ r (i' i : Nat), σ[i']? = some i → d'.choice i' r = d.choice i r)
    (hu : ∀ r (i' i : Nat) lo hi, σ[i']? = some i → sp.kinds[i]? = some (.continuous lo hi) →
      u' r (contBefore (arrange σ sp.kinds) i') = u r (contBefore sp.kinds i))
    {des des' : Nat → Vec} (hdes : ∀ r, des r = sp.getContinuousBounds.mapIdx fun c b => g b (u r c))
    (hdes' : ∀ r, des' r = sp'.getContinuousBounds.mapIdx fun c b => g b (u' r c)) (l : List Nat) :
    ∃ X : Mat, (∀ r ∈ X, r.length = sp.kinds.length) ∧ X.length = l.length ∧
      mapE (GPyOpt.designRow sp d des) l = .ok X ∧
      mapE (GPyOpt.designRow sp' d' des') l = .ok (X.map (arrange σ)) := by
  induction l with
  | nil => exact ⟨[], by simp, rfl, rfl, rfl⟩
  | cons r l ih =>
    obtain ⟨X, h1, h2, h3, h4⟩ := ih
    obtain ⟨row, r1, r2, r3⟩ := h.designRow g (hch r) (hu r) (hdes r) (hdes' r)
    refine ⟨row :: X, ?_, by simp [h2], by simp [mapE, r2, h3], by simp [mapE, r3, h4]⟩
    intro x hx
    rcases List.mem_cons.1 hx with rfl | hx
    · exact r1
    · exact h1 x hx

theorem randomNoConstr (h : Arranged σ sp sp') {o o' : DesignOracle} (ho : SameDraws σ sp.kinds o o') (t n : Nat) :
    ∃ X : Mat, (∀ r ∈ X, r.length = sp.kinds.length) ∧ X.length = n ∧
      GPyOpt.randomNoConstr sp (o.draws t) n = .ok X ∧
      GPyOpt.randomNoConstr sp' (o'.draws t) n = .ok (X.map (arrange σ)) := by
  have := h.mapE_designRow (d := o.draws t) (d' := o'.draws t) (fun b v => b.1 + (b.2 - b.1) * v)
    (u := fun r c => (o.draws t).unif c r) (u' := fun r c => (o'.draws t).unif c r)
    (fun r => ho.choice t r) (fun r => ho.unif t r) (des := fun r => uniformRow (fun k => (o.draws t).unif k r)
      sp.getContinuousBounds) (des' := fun r => uniformRow (fun k => (o'.draws t).unif k r)
      sp'.getContinuousBounds) (fun r => rfl) (fun r => rfl) (List.range n)
  rw [List.length_range] at this
  exact this

theorem selectValid_arrange (X : Mat) (w : List ℚ) :
    selectValid (X.map (arrange σ)) w = (selectValid X w).map (arrange σ) := by
  unfold selectValid
  rw [List.map_filterMap, List.zip_map_left, List.filterMap_map]
  congr 1
  funext p
  simp only [Function.comp, Prod.map_fst, Prod.map_snd, id]
  split_ifs <;> rfl

theorem constrLoop (h : Arranged σ sp sp') {o o' : DesignOracle} (ho : SameDraws σ sp.kinds o o') (n : Nat) :
    ∀ (fuel t : Nat) (S : Mat), GPyOpt.constrLoop sp' n o'.draws fuel t (S.map (arrange σ))
      = (GPyOpt.constrLoop sp n o.draws fuel t S).map (List.map (arrange σ)) := by
  intro fuel
  induction fuel with
  | zero =>
    intro t S
    unfold GPyOpt.constrLoop
    rw [List.length_map]
    split_ifs
    · rfl
    · simp
  | succ fuel ih =>
    intro t S
    unfold GPyOpt.constrLoop
    rw [List.length_map]
    split_ifs
    · obtain ⟨X, h1, -, h3, h4⟩ := h.randomNoConstr ho t n
      simp only [h3, h4, h.indicator h1]
      cases sp.indicatorConstraints X with
      | error e => rfl
      | ok w =>
        simp only
        rw [selectValid_arrange, ← List.map_append]
        exact ih (t + 1) _
    · simp

theorem designs (h : Arranged σ sp sp') {o o' : DesignOracle} (ho : SameDraws σ sp.kinds o o') (n : Nat) {t : String}
    (ht : t = "random" ∨ t = "latin") :
    initialDesign t sp' o' n = (initialDesign t sp o n).map (List.map (arrange σ)) := by
  rcases ht with rfl | rfl
  · simp only [initialDesign, if_true, randomDesign, h.hasConstraints]
    split_ifs
    · have := h.constrLoop ho n o.fuel 0 []
      rw [List.map_nil] at this
      rw [ho.fuel]
      exact this
    · obtain ⟨X, -, -, h3, h4⟩ := h.randomNoConstr ho 0 n
      rw [h3, h4]
      rfl
  · have hl : ∀ (sp : Space) (o : DesignOracle), initialDesign "latin" sp o n = latinDesign sp (o.draws 0) o.lhs n :=
      fun _ _ => by simp [initialDesign]
    rw [hl, hl]
    unfold latinDesign
    rw [h.hasConstraints]
    split_ifs
    · rfl
    · obtain ⟨X, -, -, h3, h4⟩ := h.mapE_designRow (d := o.draws 0) (d' := o'.draws 0)
        (fun b v => b.1 + v * (b.2 - b.1)) (u := o.lhs) (u' := o'.lhs) (ho.choice 0) ho.lhs
        (des := fun r => sp.getContinuousBounds.mapIdx fun k b => b.1 + o.lhs r k * (b.2 - b.1))
        (des' := fun r => sp'.getContinuousBounds.mapIdx fun k b => b.1 + o'.lhs r k * (b.2 - b.1))
        (fun r => rfl) (fun r => rfl) (List.range n)
      rw [h3, h4]
      rfl

theorem designs_length (h : Arranged σ sp sp') {o o' : DesignOracle} (ho : SameDraws σ sp.kinds o o') (n : Nat)
    {X : Mat} (hX : initialDesign "random" sp o n = .ok X) : ∀ r ∈ X, r.length = sp.expanded.length := by
  rw [expanded_length]
  simp only [initialDesign, if_true, randomDesign] at hX
  split_ifs at hX
  · have key : ∀ (fuel t : Nat) (S : Mat), (∀ r ∈ S, r.length = sp.kinds.length) →
        ∀ Y, GPyOpt.constrLoop sp n o.draws fuel t S = .ok Y → ∀ r ∈ Y, r.length = sp.kinds.length := by
      intro fuel
      induction fuel with
      | zero =>
        intro t S hS Y hY
        unfold GPyOpt.constrLoop at hY
        split_ifs at hY
        cases hY
        intro r hr
        exact hS r (List.mem_of_mem_take hr)
      | succ fuel ih =>
        intro t S hS Y hY
        unfold GPyOpt.constrLoop at hY
        split_ifs at hY
        · obtain ⟨D, h1, -, h3, -⟩ := h.randomNoConstr ho t n
          simp only [h3] at hY
          cases hw : sp.indicatorConstraints D with
          | error e => rw [hw] at hY; cases hY
          | ok w =>
            rw [hw] at hY
            refine ih _ _ ?_ Y hY
            intro r hr
            rcases List.mem_append.1 hr with hr | hr
            · exact hS r hr
            · unfold selectValid at hr
              obtain ⟨p, hp, hp2⟩ := List.mem_filterMap.1 hr
              split_ifs at hp2
              cases hp2
              exact h1 _ (List.of_mem_zip hp).1
        · cases hY
          intro r hr
          exact hS r (List.mem_of_mem_take hr)
    exact key _ _ _ (by simp) X hX
  · obtain ⟨Y, h1, -, h3, -⟩ := h.randomNoConstr ho 0 n
    rw [h3] at hX
    cases hX
    exact h1

/-- Problems with their variables in another order correspond. -/
theorem corr (h : Arranged σ sp sp') {c c' : Ctx} (hc : GPyOpt.contextManager sp none = .ok c)
    (hc' : GPyOpt.contextManager sp' none = .ok c') :
    Corr sp c sp' c' (arrangeCols σ sp.kinds) (arrangeCols σ sp.kinds) (arrange σ) (SameDraws σ sp.kinds)
      (fun unique t => unique = false ∧ t = "random") (fun _ => True) fun x => x.length = sp.modelDim := by
  obtain ⟨config, cs, hsp⟩ := h.built
  obtain ⟨config', cs', hsp'⟩ := h.built'
  obtain ⟨e1, -, e3⟩ := expand_self hsp h.noBandit hc
  obtain ⟨f1, -, f3⟩ := expand_self hsp' h.noBandit' hc'
  refine ⟨h.noBandit, ?_, fun _ _ _ _ _ _ _ _ hX => Corr.samples_length h.noBandit hX, fun _ hx => hx, ?_, ?_, ?_,
    ?_, fun _ _ _ _ _ _ _ => trivial, ?_, ?_⟩
  · rintro _ _ n o o' ⟨rfl, rfl⟩ ho
    rw [anchorSamples_none hsp h.noBandit h.modelDim_pos hc,
      anchorSamples_none hsp' h.noBandit' (by rw [h.modelDim]; exact h.modelDim_pos) hc',
      h.designs ho n (.inl rfl)]
    cases hX : initialDesign "random" sp o n with
    | error e => rfl
    | ok X =>
      simp only [Except_map_ok, List.map_eq_nil_iff]
      by_cases h0 : X = []
      · rw [if_pos h0, if_pos h0]; rfl
      · rw [if_neg h0, if_neg h0]
        exact h.sameUnzip X ⟨h0, h.designs_length ho n hX⟩
  · intro x hx
    rw [(e3 x hx).2, (f3 _ (by rw [h.arrangeCols_length, h.modelDim, hx])).2]
    rfl
  · intro x hx
    rw [e1] at hx
    rw [(e3 x hx).1, (f3 _ (by rw [h.arrangeCols_length, h.modelDim, hx])).1]
    rfl
  · intro x hx _
    obtain ⟨r, -, r1, r2⟩ := h.round hx
    rw [r1, r2]
    rfl
  · intro x m hx _ hm
    obtain ⟨r, r0, r1, -⟩ := h.round hx
    rw [r1] at hm
    cases hm
    simpa using r0
  · intro m hm hl
    exact h.zip hm hl
  · intro x y hx hy he
    rw [expanded_length] at hx hy
    exact arrange_inj h.order hx hy he

theorem arrangeCols_injective (h : Arranged σ sp sp') : Function.Injective (arrangeCols σ sp.kinds) := by
  intro x y he
  have hl : x.length = y.length := by rw [← h.arrangeCols_length x, he, h.arrangeCols_length y]
  by_cases hx : x.length = sp.modelDim
  · obtain ⟨bs, b1, b2, b3, b4⟩ := h.blocks hx
    obtain ⟨bs', b1', b2', b3', b4'⟩ := h.blocks (hl ▸ hx)
    rw [b4, b4'] at he
    have h1 := congrArg (blocksOf sp'.kinds) he
    rw [blocksOf_flatten b3, blocksOf_flatten b3'] at h1
    rw [b2, b2', arrange_inj h.order b1.length_eq.symm b1'.length_eq.symm h1]
  · rw [modelDim_eq] at hx
    unfold arrangeCols at he
    rwa [if_neg hx, if_neg (by rw [← hl]; exact hx)] at he

/-- The context managers of both problems exist. -/
theorem managers (h : Arranged σ sp sp') : ∃ c c', GPyOpt.contextManager sp none = .ok c ∧
    GPyOpt.contextManager sp' none = .ok c' := by
  obtain ⟨config, cs, hsp⟩ := h.built
  obtain ⟨config', cs', hsp'⟩ := h.built'
  obtain ⟨c, -, hc, -⟩ := C23_context_partition hsp h.noBandit
    (fun k hk => h.domains k (by rw [space_kinds_eq hsp]; exact hk)) none ⟨by simp, by simp⟩
  obtain ⟨c', -, hc', -⟩ := C23_context_partition hsp' h.noBandit'
    (fun k hk => h.domains' k (by rw [space_kinds_eq hsp']; exact hk)) none ⟨by simp, by simp⟩
  exact ⟨c, c', hc, hc'⟩

end Spec.Arranged

theorem npAny_perm {x y : Vec} (h : x.Perm y) : npAny [x] = npAny [y] := by
  simp only [npAny, List.any_cons, List.any_nil, Bool.or_false]
  exact h.any_eq

end GPyOpt
