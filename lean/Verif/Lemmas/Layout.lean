import Verif.Lemmas.Build

/-! Lemmas on column layout, bounds, dimension lists and constraints. -/

namespace GPyOpt

open Spec

theorem indexWidth_eq {k : Kind} (h : ∀ arms, k ≠ .bandit arms) : k.indexWidth = width k := by
  cases k with
  | bandit arms => exact absurd rfl (h arms)
  | _ => rfl

theorem computeIndices_get (vs : List EVar) (hnb : NoBandit (vs.map EVar.kind)) :
    ∀ (o m i : Nat) (v : EVar), (computeIndices o m vs)[i]? = some v →
      v.idxObj = o + i ∧
      v.idxModel = (List.range (width v.kind)).map
        ((m + (((vs.map EVar.kind).take i).map width).sum) + ·) := by
  induction vs with
  | nil => intro o m i v h; simp [computeIndices] at h
  | cons w vs ih =>
    intro o m i v h
    have hw := indexWidth_eq (hnb w.kind (by simp))
    cases i with
    | zero =>
      simp only [computeIndices, List.getElem?_cons_zero, Option.some.injEq] at h
      subst h
      simp [hw]
    | succ i =>
      simp only [computeIndices, List.getElem?_cons_succ] at h
      obtain ⟨h1, h2⟩ := ih (fun k hk => hnb k (by simp_all)) _ _ _ _ h
      refine ⟨by omega, ?_⟩
      rw [h2, hw]
      simp [Nat.add_assoc]

theorem computeIndices_flatMap (vs : List EVar) (hnb : NoBandit (vs.map EVar.kind)) :
    ∀ (o m : Nat), (computeIndices o m vs).flatMap EVar.idxModel
      = (List.range ((vs.map EVar.kind).map width).sum).map (m + ·) := by
  induction vs with
  | nil => intro o m; rfl
  | cons w vs ih =>
    intro o m
    have hw := indexWidth_eq (hnb w.kind (by simp))
    simp only [computeIndices, List.flatMap_cons, ih (fun k hk => hnb k (by simp_all)), hw,
      List.map_cons, List.sum_cons, List.range_add, List.map_append, List.map_map]
    congr 1
    apply List.map_congr_left
    intro x _
    simp [Nat.add_assoc]

theorem encodeRow_block {ks : List Kind} {row : Vec} (h : List.Forall₂ Encodable ks row) :
    ∀ (i : Nat) (k : Kind) (x : ℚ), ks[i]? = some k → row[i]? = some x →
      slice (encodeRow ks row) ((ks.take i).map width).sum (width k) = encodeVal k x := by
  induction h with
  | nil => intro i k x h; simp at h
  | @cons k0 x0 ks row h0 _ ih =>
    intro i k x hk hx
    have he : encodeRow (k0 :: ks) (x0 :: row) = encodeVal k0 x0 ++ encodeRow ks row := by
      simp [encodeRow]
    cases i with
    | zero =>
      simp at hk hx
      subst hk hx
      have := slice_append_block [] (encodeVal k0 x0) (encodeRow ks row)
      rw [encodeVal_length h0] at this
      simpa [he] using this
    | succ i =>
      simp at hk hx
      have := ih i k x hk hx
      rw [he]
      simp only [List.take_succ_cons, List.map_cons, List.sum_cons]
      unfold slice at this ⊢
      rw [← encodeVal_length h0, List.drop_append, List.drop_of_length_le (by omega)]
      simpa using this

theorem map_range_getElem? {α : Type} (l : List α) (a n : Nat) (h : a + n ≤ l.length) :
    ((List.range n).map (a + ·)).map (fun c => l[c]?) = (slice l a n).map some := by
  apply List.ext_getElem
  · simp [slice]; omega
  · intro i h1 h2
    simp at h1
    simp only [slice, List.getElem_map, List.getElem_range, List.getElem_take, List.getElem_drop]
    exact List.getElem?_eq_getElem (by omega)

/-! ### Bounds -/

theorem pyMin_spec {l : List ℚ} (h : l ≠ []) : ∃ m, pyMin l = .ok m ∧ m ∈ l ∧ ∀ x ∈ l, m ≤ x := by
  cases l with
  | nil => exact absurd rfl h
  | cons x xs =>
    refine ⟨_, rfl, ?_⟩
    clear h
    induction xs generalizing x with
    | nil => simp
    | cons y ys ih =>
      simp only [List.foldl_cons]
      obtain ⟨h1, h2⟩ := ih (if y < x then y else x)
      split_ifs at h1 h2 ⊢ with hc
      · refine ⟨by simp at h1 ⊢; tauto, ?_⟩
        intro z hz
        have hy := h2 y (by simp)
        rcases List.mem_cons.1 hz with rfl | hz
        · linarith
        · exact h2 z hz
      · refine ⟨by simp at h1 ⊢; tauto, ?_⟩
        intro z hz
        have hx := h2 x (by simp)
        rcases List.mem_cons.1 hz with rfl | hz
        · exact hx
        · rcases List.mem_cons.1 hz with rfl | hz
          · linarith
          · exact h2 z (by simp [hz])

theorem pyMax_spec {l : List ℚ} (h : l ≠ []) : ∃ m, pyMax l = .ok m ∧ m ∈ l ∧ ∀ x ∈ l, x ≤ m := by
  cases l with
  | nil => exact absurd rfl h
  | cons x xs =>
    refine ⟨_, rfl, ?_⟩
    clear h
    induction xs generalizing x with
    | nil => simp
    | cons y ys ih =>
      simp only [List.foldl_cons]
      obtain ⟨h1, h2⟩ := ih (if x < y then y else x)
      split_ifs at h1 h2 ⊢ with hc
      · refine ⟨by simp at h1 ⊢; tauto, ?_⟩
        intro z hz
        have hy := h2 y (by simp)
        rcases List.mem_cons.1 hz with rfl | hz
        · linarith
        · exact h2 z hz
      · refine ⟨by simp at h1 ⊢; tauto, ?_⟩
        intro z hz
        have hx := h2 x (by simp)
        rcases List.mem_cons.1 hz with rfl | hz
        · exact hx
        · rcases List.mem_cons.1 hz with rfl | hz
          · linarith
          · exact h2 z (by simp [hz])

/-- Bounds of one variable: intervals that contain every admissible block, of its width. -/
theorem kind_getBounds_spec {k : Kind} (hnb : ∀ arms, k ≠ .bandit arms) (hne : NonEmptyDom k) :
    ∃ bs, k.getBounds = .ok bs ∧ bs.length = width k ∧
      (∀ b, ValidBlock k b → List.Forall₂ (fun (i : ℚ × ℚ) x => i.1 ≤ x ∧ x ≤ i.2) bs b) ∧
      (∀ vals, k = .discrete vals → ∃ a b, bs = [(a, b)] ∧ a ∈ vals ∧ b ∈ vals) := by
  cases k with
  | continuous lo hi =>
    refine ⟨_, rfl, rfl, ?_, by simp⟩
    rintro b ⟨x, rfl, h1, h2⟩
    exact .cons ⟨h1, h2⟩ .nil
  | discrete vals =>
    obtain ⟨a, ha, ha1, ha2⟩ := pyMin_spec hne
    obtain ⟨b, hb, hb1, hb2⟩ := pyMax_spec hne
    refine ⟨[(a, b)], by simp [Kind.getBounds, ha, hb], rfl, ?_, ?_⟩
    · rintro _ ⟨x, hx, rfl⟩
      exact .cons ⟨ha2 x hx, hb2 x hx⟩ .nil
    · rintro vals' hv
      cases hv
      exact ⟨a, b, rfl, ha1, hb1⟩
  | categorical labels =>
    refine ⟨_, rfl, by simp [width], ?_, by simp⟩
    rintro _ ⟨i, hi, rfl⟩
    rw [List.forall₂_iff_get]
    refine ⟨by simp [oneHot_length], ?_⟩
    intro j h1 h2
    simp only [oneHot, List.get_eq_getElem, List.getElem_replicate, List.getElem_map]
    split_ifs <;> norm_num
  | bandit arms => exact absurd rfl (hnb arms)

/-! ### Dimension lists -/

theorem dimsWhere_ok (p : Kind → Bool) (ex : List EVar) (is : List Nat)
    (h : ∀ i ∈ is, i < ex.length) :
    Space.dimsWhere p ex is
      = .ok (is.filter fun i => (ex[i]?.map (fun v => p v.kind)).getD false) := by
  induction is with
  | nil => rfl
  | cons i is ih =>
    have hi := h i (by simp)
    have hg : npGet ex i = .ok ex[i] := by rw [npGet_ok]; exact List.getElem?_eq_getElem hi
    simp only [Space.dimsWhere, hg, ih (fun j hj => h j (by simp [hj])), List.filter_cons,
      List.getElem?_eq_getElem hi, Option.map_some, Option.getD_some]

theorem space_vars_kinds {config : List Desc} {cs : Option (List ConstrDict)} {sp : Space}
    (h : designSpace config cs = .ok sp) (hb : sp.hasBandit = false) :
    sp.kinds = sp.vars.flatMap fun v => List.replicate v.dimensionality v.kind := by
  rw [space_kinds h]
  unfold Space.hasBandit at hb
  rw [List.any_eq_false] at hb
  rw [List.flatMap_def, List.flatMap_def]
  congr 1
  apply List.map_congr_left
  intro v hv
  rw [if_neg (hb v hv)]

/-- The interval of a continuous variable. -/
def contBound : Kind → Option (ℚ × ℚ)
  | .continuous lo hi => some (lo, hi)
  | _ => none

theorem filterMap_replicate_flatMap (vs : List Var) :
    (vs.flatMap fun v => List.replicate v.dimensionality v.kind).filterMap contBound
      = vs.flatMap fun v => match v.kind with
        | .continuous lo hi => List.replicate v.dimensionality (lo, hi)
        | _ => [] := by
  rw [List.filterMap_flatMap]
  congr 1
  funext v
  cases hk : v.kind with
  | continuous lo hi =>
    simp only
    induction v.dimensionality with
    | zero => rfl
    | succ n ih => rw [List.replicate_succ, List.replicate_succ, List.filterMap_cons, ih]; rfl
  | _ => simp [contBound]

theorem getContinuousBounds_eq {config : List Desc} {cs : Option (List ConstrDict)} {sp : Space}
    (h : designSpace config cs = .ok sp) (hb : sp.hasBandit = false) :
    sp.getContinuousBounds = sp.kinds.filterMap contBound := by
  rw [space_vars_kinds h hb, filterMap_replicate_flatMap]
  rfl

theorem dimensionality_eq {config : List Desc} {cs : Option (List ConstrDict)} {sp : Space}
    (h : designSpace config cs = .ok sp) (hb : sp.hasBandit = false) :
    sp.dimensionality = sp.expanded.length := by
  have h1 := congrArg List.length (space_vars_kinds h hb)
  unfold Space.kinds at h1
  rw [List.length_map] at h1
  rw [h1, Space.dimensionality, List.length_flatMap]
  simp

/-! ### Constraints -/

theorem applyConstr_ok {c : ConstrDict} {x : Mat} {w w' : List ℚ} (hl : w.length = x.length)
    (h : applyConstr c x w = .ok w') :
    ∃ f, c.constraint = some f ∧ w'.length = x.length ∧
      ∀ (i : Nat) (r : Vec) (a : ℚ), x[i]? = some r → w[i]? = some a →
        ∃ v, f r = .ok v ∧ w'[i]? = some (a * if v ≤ 0 then 1 else 0) := by
  unfold applyConstr at h
  cases hc : c.constraint with
  | none => simp [hc] at h
  | some f =>
    simp only [hc] at h
    cases hm : mapE f x with
    | error e => simp [hm] at h
    | ok vals =>
      simp only [hm, Except.ok.injEq] at h
      subst h
      have hvl := mapE_length hm
      refine ⟨f, rfl, by simp [hl, hvl], ?_⟩
      intro i r a hr ha
      rw [mapE_eq_ok, List.forall₂_iff_get] at hm
      have hi : i < x.length := (List.getElem?_eq_some_iff.1 hr).1
      have := hm.2 i hi (by omega)
      simp only [List.get_eq_getElem] at this
      refine ⟨vals[i], ?_, ?_⟩
      · rw [← (List.getElem?_eq_some_iff.1 hr).2]; exact this
      · rw [List.getElem?_zipWith, ha, List.getElem?_eq_getElem (by omega)]

theorem applyConstrs_ok (cs : List ConstrDict) (x : Mat) : ∀ (w w' : List ℚ),
    w.length = x.length → (∀ a ∈ w, a = 1 ∨ a = 0) → applyConstrs cs x w = .ok w' →
    w'.length = x.length ∧
      ∀ (i : Nat) (r : Vec) (a : ℚ), x[i]? = some r → w[i]? = some a →
        (w'[i]? = some 1 ∧ a = 1 ∧ ∀ c ∈ cs, ∃ f v, c.constraint = some f ∧ f r = .ok v ∧ v ≤ 0) ∨
        (w'[i]? = some 0 ∧ (a = 0 ∨ ∃ c ∈ cs, ∃ f v, c.constraint = some f ∧ f r = .ok v ∧ 0 < v)) := by
  induction cs with
  | nil =>
    intro w w' hl h01 h
    simp only [applyConstrs, Except.ok.injEq] at h
    subst h
    refine ⟨hl, ?_⟩
    intro i r a hr ha
    rcases h01 a (List.mem_of_getElem? ha) with rfl | rfl
    · exact .inl ⟨ha, rfl, by simp⟩
    · exact .inr ⟨ha, .inl rfl⟩
  | cons c cs ih =>
    intro w w'' hl h01 h
    simp only [applyConstrs] at h
    cases h1 : applyConstr c x w with
    | error e => simp [h1] at h
    | ok w' =>
      simp only [h1] at h
      obtain ⟨f, hf, hl', hw'⟩ := applyConstr_ok hl h1
      have h01' : ∀ a ∈ w', a = 1 ∨ a = 0 := by
        intro a ha
        obtain ⟨i, hi⟩ := List.getElem?_of_mem ha
        have hi' : i < w'.length := (List.getElem?_eq_some_iff.1 hi).1
        obtain ⟨v, _, hv⟩ := hw' i x[i] w[i] (List.getElem?_eq_getElem (by omega))
          (List.getElem?_eq_getElem (by omega))
        rw [hi] at hv
        rcases h01 _ (List.getElem_mem (h := (by omega : i < w.length))) with h3 | h3 <;>
          rw [h3] at hv <;> split_ifs at hv <;> simp at hv <;> tauto
      obtain ⟨hl'', hfin⟩ := ih w' w'' hl' h01' h
      refine ⟨hl'', ?_⟩
      intro i r a hr ha
      obtain ⟨v, hv, hwi⟩ := hw' i r a hr ha
      rcases hfin i r _ hr hwi with ⟨h2, h3, h4⟩ | ⟨h2, h3⟩
      · left
        have : a = 1 ∧ v ≤ 0 := by
          split_ifs at h3 with hv0
          · exact ⟨by simpa using h3, hv0⟩
          · simp at h3
        refine ⟨h2, this.1, ?_⟩
        intro c' hc'
        rcases List.mem_cons.1 hc' with rfl | hc'
        · exact ⟨f, v, hf, hv, this.2⟩
        · exact h4 c' hc'
      · right
        refine ⟨h2, ?_⟩
        rcases h3 with h3 | ⟨c', hc', h3⟩
        · by_cases ha0 : a = 0
          · exact .inl ha0
          · right
            split_ifs at h3 with hv0
            · simp at h3; exact absurd h3 ha0
            · exact ⟨c, by simp, f, v, hf, hv, not_le.1 hv0⟩
        · exact .inr ⟨c', by simp [hc'], h3⟩

theorem applyConstrs_total (cs : List ConstrDict) (x : Mat)
    (h : ∀ c ∈ cs, ∃ f, c.constraint = some f ∧ ∀ r ∈ x, ∃ v, f r = .ok v) :
    ∀ w, ∃ w', applyConstrs cs x w = .ok w' := by
  induction cs with
  | nil => intro w; exact ⟨w, rfl⟩
  | cons c cs ih =>
    intro w
    obtain ⟨f, hf, hv⟩ := h c (by simp)
    obtain ⟨vals, hm⟩ := mapE_total hv
    obtain ⟨w', h'⟩ := ih (fun c' hc' => h c' (by simp [hc'])) 
      (List.zipWith (fun a v => a * (if v ≤ 0 then 1 else 0)) w vals)
    exact ⟨w', by simp only [applyConstrs, applyConstr, hf, hm, h']⟩

end GPyOpt
