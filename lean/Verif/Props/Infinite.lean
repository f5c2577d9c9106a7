import Verif.Model.Infinite
import Verif.Props.LPSpecial
import Verif.Lemmas.Py

/-!
# Infinite outputs and times of zero (C171)
-/

namespace GPyOpt.Props

open GPyOpt

theorem foldl_min_le_mem {α : Type} [LinearOrder α] (l : List α) (a : α) :
    l.foldl min a ≤ a ∧ (∀ y ∈ l, l.foldl min a ≤ y) ∧ (l.foldl min a = a ∨ l.foldl min a ∈ l) := by
  induction l generalizing a with
  | nil => exact ⟨le_refl a, by simp, Or.inl rfl⟩
  | cons x l ih =>
    obtain ⟨h1, h2, h3⟩ := ih (min a x)
    simp only [List.foldl_cons]
    refine ⟨h1.trans (min_le_left a x), fun y hy => ?_, ?_⟩
    · rcases List.mem_cons.mp hy with rfl | hy
      · exact h1.trans (min_le_right a y)
      · exact h2 y hy
    · rcases h3 with h3 | h3
      · rcases min_choice a x with e | e
        · exact Or.inl (h3.trans e)
        · refine Or.inr ?_
          rw [h3, e]
          exact List.mem_cons_self
      · exact Or.inr (List.mem_cons_of_mem x h3)

/-- With infinite outputs the reported optimum is the first location of the smallest output, and `fx_opt` is that output: a
location with output `inf` is reported only if there is nothing else. -/
theorem C171_optimum (X : Mat) (Y : List EReal) (hX : X.length = Y.length) (hY : Y ≠ []) :
    ∃ r i, infComputeResults X Y = .ok r ∧ X[i]? = some r.xOpt ∧ Y[i]? = some r.fxOpt ∧
      (∀ (j : Nat) (y : EReal), Y[j]? = some y → r.fxOpt ≤ y ∧ (j < i → r.fxOpt < y)) ∧
      ((∃ y ∈ Y, y ≠ ⊤) → r.fxOpt ≠ ⊤) ∧
      ∀ k < Y.length, ∃ b, r.yBest[k]? = some b ∧ b ∈ Y.take (k + 1) ∧ ∀ y ∈ Y.take (k + 1), b ≤ y := by
  obtain ⟨i, v, h1, h2, h3, h4⟩ := argmin_spec hY
  have hi : i < X.length := hX ▸ h2
  have hx : npGet X i = .ok X[i] := by
    simp [npGet, hi]
  obtain ⟨a, l, rfl⟩ := List.exists_cons_of_ne_nil hY
  have hfold : ∀ l' : List EReal, (∀ y ∈ l', y ∈ a :: l) → a ∈ l' →
      l'.foldl min a ∈ l' ∧ ∀ y ∈ l', l'.foldl min a ≤ y := by
    intro l' _ ha
    obtain ⟨f1, f2, f3⟩ := foldl_min_le_mem l' a
    refine ⟨?_, f2⟩
    rcases f3 with f3 | f3
    · rw [f3]; exact ha
    · exact f3
  obtain ⟨g1, g2⟩ := hfold (a :: l) (fun _ h => h) List.mem_cons_self
  have hv : (a :: l).foldl min a = v := by
    refine le_antisymm (g2 v (List.mem_of_getElem? h3)) ?_
    obtain ⟨j, hj⟩ := List.mem_iff_getElem?.mp g1
    exact (h4 j _ hj).1
  refine ⟨⟨(List.range (a :: l).length).map fun k => ((a :: l).take (k + 1)).foldl min a, X[i], (a :: l).foldl min a⟩, i,
    ?_, ?_, ?_, ?_, ?_, ?_⟩
  · rw [infComputeResults, h1]
    simp only [hx]
    rfl
  · simp [hi]
  · rw [h3, hv]
  · intro j y hy
    rw [hv]
    exact h4 j y hy
  · rintro ⟨y, hy, hne⟩
    intro e
    exact hne (top_le_iff.mp (e ▸ g2 y hy))
  · intro k hk
    have ha : a ∈ (a :: l).take (k + 1) := by simp
    obtain ⟨p1, p2⟩ := hfold ((a :: l).take (k + 1)) (fun y h => List.mem_of_mem_take h) ha
    refine ⟨_, ?_, p1, p2⟩
    rw [List.getElem?_map, List.getElem?_range hk]
    rfl

/-! ## Normalization -/

theorem xSum_map_fin (Y : List ℝ) : xSum (Y.map .fin) = .fin Y.sum := by
  induction Y with
  | nil => rfl
  | cons y Y ih => simp only [List.map_cons, xSum, ih, XR.add, List.sum_cons]

theorem xMean_fin {Y : List ℝ} (h : Y ≠ []) : xMean (Y.map .fin) = .fin (meanR Y) := by
  have hl : ((Y.map XR.fin).length : ℝ) ≠ 0 := by simpa using h
  rw [xMean, xSum_map_fin, xInv_ne hl, XR.mul, meanR]
  simp [div_eq_mul_inv]

theorem xStd_fin {Y : List ℝ} (h : Y ≠ []) : xStd (Y.map .fin) = .fin (stdR Y) := by
  have : (Y.map XR.fin).map (fun y => XR.mul (XR.sub y (xMean (Y.map .fin))) (XR.sub y (xMean (Y.map .fin))))
      = (Y.map fun y => (y - meanR Y) ^ 2).map .fin := by
    rw [xMean_fin h]
    simp only [List.map_map]
    refine List.map_congr_left fun y _ => ?_
    simp only [Function.comp, XR.sub, XR.neg, XR.add, XR.mul]
    congr 1
    ring
  rw [xStd, this, xMean_fin (by simpa using h), XR.sqrt, stdR, meanR]
  simp

theorem foldl_min2_fin (Y : List ℝ) (a : ℝ) : (Y.map XR.fin).foldl XR.min2 (.fin a) = .fin (Y.foldl min a) := by
  induction Y generalizing a with
  | nil => rfl
  | cons y Y ih => simp only [List.map_cons, List.foldl_cons, XR.min2, ih]

theorem foldl_max2_fin (Y : List ℝ) (a : ℝ) : (Y.map XR.fin).foldl XR.max2 (.fin a) = .fin (Y.foldl max a) := by
  induction Y generalizing a with
  | nil => rfl
  | cons y Y ih =>
    simp only [List.map_cons, List.foldl_cons]
    rw [show XR.max2 (.fin a) (.fin y) = .fin (max a y) by
      simp only [XR.max2, XR.neg, XR.min2]; rw [min_neg_neg, neg_neg], ih]

/-- Outputs that are numbers are normalized to numbers, the ones of the real model. -/
theorem C171_numbers (Y : List ℝ) (h : Y ≠ []) (type : String) :
    xNormalize (Y.map .fin) type = (normalize [Y.length, 1] Y type).map (List.map .fin) := by
  have hshape : ¬ List.foldl max 0 [Y.length, 1] ≠ List.foldl (· * ·) 1 [Y.length, 1] := by
    have := List.length_pos_iff.2 h
    simp
    omega
  obtain ⟨a, l, rfl⟩ := List.exists_cons_of_ne_nil h
  have hmin : xMin ((a :: l).map .fin) = .fin (minR (a :: l)) := by
    simp only [xMin, minR, List.map_cons, List.headD_cons]
    exact foldl_min2_fin (a :: l) a
  have hmax : xMax ((a :: l).map .fin) = .fin (maxR (a :: l)) := by
    simp only [xMax, maxR, List.map_cons, List.headD_cons]
    exact foldl_max2_fin (a :: l) a
  have hsub : ∀ x y : ℝ, XR.sub (.fin x) (.fin y) = .fin (x - y) := by
    intro x y
    simp only [XR.sub, XR.neg, XR.add]
    congr 1
  unfold normalize xNormalize
  rw [if_neg (c := _ ∨ _) (by simp), if_neg hshape, xMean_fin h, xStd_fin h, hmin, hmax, hsub]
  simp only [XR.Pos]
  by_cases h1 : type = "stats"
  · rw [if_pos h1, if_pos h1]
    by_cases h2 : 0 < stdR (a :: l)
    · simp only [if_pos h2, Except.map, Except.ok.injEq, List.map_map]
      refine List.map_congr_left fun y _ => ?_
      simp only [Function.comp, hsub, xInv_ne (ne_of_gt h2), XR.mul]
      congr 1
      ring
    · simp only [if_neg h2, Except.map, Except.ok.injEq, List.map_map]
      exact List.map_congr_left fun y _ => by simp only [Function.comp, hsub]
  · rw [if_neg h1, if_neg h1]
    by_cases h3 : type = "maxmin"
    · rw [if_pos h3, if_pos h3]
      by_cases h2 : 0 < maxR (a :: l) - minR (a :: l)
      · simp only [if_pos h2, Except.map, Except.ok.injEq, List.map_map]
        refine List.map_congr_left fun y _ => ?_
        simp only [Function.comp, hsub, xInv_ne (ne_of_gt h2), XR.mul]
        congr 1
        ring
      · simp only [if_neg h2, Except.map, Except.ok.injEq, List.map_map]
        exact List.map_congr_left fun y _ => by simp only [Function.comp, hsub]
    · rw [if_neg h3, if_neg h3]
      rfl

/-- A number or `inf`. -/
def NumberOrInf : XR → Prop
  | .fin _ => True
  | .pinf => True
  | _ => False

theorem xSum_pinf {Y : List XR} (h : ∀ y ∈ Y, NumberOrInf y) :
    (.pinf ∈ Y → xSum Y = .pinf) ∧ (xSum Y = .pinf ∨ ∃ z, xSum Y = .fin z) := by
  induction Y with
  | nil => exact ⟨by simp, Or.inr ⟨0, rfl⟩⟩
  | cons y Y ih =>
    obtain ⟨i1, i2⟩ := ih fun z hz => h z (List.mem_cons_of_mem y hz)
    have hy := h y List.mem_cons_self
    simp only [xSum]
    cases y with
    | nan => exact hy.elim
    | ninf => exact hy.elim
    | pinf => rcases i2 with e | ⟨z, e⟩ <;> rw [e] <;> simp [XR.add]
    | fin x =>
      refine ⟨fun hm => ?_, ?_⟩
      · rw [i1 (by simpa using hm)]; rfl
      · rcases i2 with e | ⟨z, e⟩ <;> rw [e] <;> simp [XR.add]

theorem xSum_nan {Y : List XR} (h : .nan ∈ Y) : xSum Y = .nan := by
  induction Y with
  | nil => simp at h
  | cons y Y ih =>
    simp only [xSum]
    rcases List.mem_cons.mp h with rfl | h
    · rfl
    · rw [ih h]; cases y <;> rfl

/-- With one output `inf` the standard normalization leaves no number: `inf` becomes `nan` and every number `-inf`. -/
theorem C171_stats_counterexample (Y : List XR) (h : ∀ y ∈ Y, NumberOrInf y) (hi : XR.pinf ∈ Y) :
    ∃ Z, xNormalize Y "stats" = .ok Z ∧ Z.length = Y.length ∧
      ∀ (k : Nat) (y : XR), Y[k]? = some y → Z[k]? = some (match y with
        | .fin _ => .ninf
        | _ => .nan) := by
  have hlen : (0 : ℝ) < (Y.length : ℝ) := by
    exact_mod_cast List.length_pos_iff.mpr (List.ne_nil_of_mem hi)
  have hmean : xMean Y = .pinf := by
    rw [xMean, (xSum_pinf h).1 hi, xInv_ne hlen.ne', XR.mul]
    exact scaleInf_pos (by positivity)
  have hstd : xStd Y = .nan := by
    have hn : .nan ∈ Y.map fun y => XR.mul (XR.sub y (xMean Y)) (XR.sub y (xMean Y)) := by
      refine List.mem_map.mpr ⟨.pinf, hi, ?_⟩
      rw [hmean]
      rfl
    rw [xStd, xMean, xSum_nan hn]
    rfl
  refine ⟨Y.map fun y => XR.sub y .pinf, ?_, by simp, fun k y hy => ?_⟩
  · rw [xNormalize, if_pos rfl, hstd, hmean]
    simp [XR.Pos]
  · rw [List.getElem?_map, hy]
    have := h y (List.mem_of_getElem? hy)
    cases y
    · exact this.elim
    · exact this.elim
    · rfl
    · rfl

theorem xMin_number {Y : List XR} (h : ∀ y ∈ Y, NumberOrInf y) (a : XR) (ha : NumberOrInf a) :
    NumberOrInf (Y.foldl XR.min2 a) ∧ (((∃ x, .fin x ∈ Y) ∨ ∃ x, a = .fin x) → ∃ x, Y.foldl XR.min2 a = .fin x) := by
  induction Y generalizing a with
  | nil => exact ⟨ha, by rintro (⟨x, hx⟩ | hx); · simp at hx
                         · exact hx⟩
  | cons y Y ih =>
    have hy := h y List.mem_cons_self
    simp only [List.foldl_cons]
    have hm : NumberOrInf (XR.min2 a y) ∧ (((∃ x, y = .fin x) ∨ ∃ x, a = .fin x) → ∃ x, XR.min2 a y = .fin x) := by
      cases a <;> cases y <;> simp_all [NumberOrInf, XR.min2]
    obtain ⟨i1, i2⟩ := ih (fun z hz => h z (List.mem_cons_of_mem y hz)) _ hm.1
    refine ⟨i1, fun hx => i2 ?_⟩
    rcases hx with ⟨x, hx⟩ | hx
    · rcases List.mem_cons.mp hx with e | hx
      · exact Or.inr (hm.2 (Or.inl ⟨x, e.symm⟩))
      · exact Or.inl ⟨x, hx⟩
    · exact Or.inr (hm.2 (Or.inr hx))

theorem xMax_inf {Y : List XR} (h : ∀ y ∈ Y, NumberOrInf y) (a : XR) (ha : NumberOrInf a) (hi : .pinf ∈ Y ∨ a = .pinf) :
    Y.foldl XR.max2 a = .pinf := by
  induction Y generalizing a with
  | nil => rcases hi with hi | hi
           · simp at hi
           · exact hi
  | cons y Y ih =>
    have hy := h y List.mem_cons_self
    simp only [List.foldl_cons]
    have hm : NumberOrInf (XR.max2 a y) ∧ (y = .pinf ∨ a = .pinf → XR.max2 a y = .pinf) := by
      cases a <;> cases y <;> simp_all [NumberOrInf, XR.max2, XR.min2, XR.neg]
    refine ih (fun z hz => h z (List.mem_cons_of_mem y hz)) _ hm.1 ?_
    rcases hi with hi | hi
    · rcases List.mem_cons.mp hi with e | hi
      · exact Or.inr (hm.2 (Or.inl e.symm))
      · exact Or.inl hi
    · exact Or.inr (hm.2 (Or.inr hi))

/-- The normalization by the range makes all numbers equal to −1, and `inf` becomes `nan`. -/
theorem C171_range_counterexample (Y : List XR) (h : ∀ y ∈ Y, NumberOrInf y) (hi : XR.pinf ∈ Y) (hf : ∃ x, XR.fin x ∈ Y) :
    ∃ Z, xNormalize Y "maxmin" = .ok Z ∧ Z.length = Y.length ∧
      ∀ (k : Nat) (y : XR), Y[k]? = some y → Z[k]? = some (match y with
        | .fin _ => .fin (-1)
        | _ => .nan) := by
  obtain ⟨a, l, rfl⟩ := List.exists_cons_of_ne_nil (List.ne_nil_of_mem hi)
  have ha := h a List.mem_cons_self
  obtain ⟨m, hm⟩ : ∃ m, xMin (a :: l) = .fin m := (xMin_number h a ha).2 (Or.inl hf)
  have hM : xMax (a :: l) = .pinf := xMax_inf h a ha (Or.inl hi)
  have hrange : XR.sub (xMax (a :: l)) (xMin (a :: l)) = .pinf := by rw [hm, hM]; rfl
  refine ⟨(a :: l).map fun y => XR.mul (.fin 2) (XR.sub (XR.mul (XR.sub y (.fin m)) (.fin 0)) (.fin (1 / 2))), ?_, by simp,
    fun k y hy => ?_⟩
  · rw [xNormalize, if_neg (by decide), if_pos rfl, hrange, hm]
    simp only [List.map_map, XR.Pos, if_true]
    rfl
  · rw [List.getElem?_map, hy]
    have := h y (List.mem_of_getElem? hy)
    cases y with
    | nan => exact this.elim
    | ninf => exact this.elim
    | pinf => simp [XR.sub, XR.neg, XR.add, XR.mul, XR.scaleInf]
    | fin x =>
      simp only [XR.sub, XR.neg, XR.add, XR.mul, Option.map_some, Option.some.injEq, XR.fin.injEq]
      norm_num

/-- The logarithm of a measured time is a number exactly if the time is positive; a time of zero becomes `-inf`. -/
theorem C171_times_partial (ts : List ℝ) (h : ∀ t ∈ ts, 0 < t) : xLogTimes ts = (ts.map Real.log).map .fin := by
  simp only [xLogTimes, List.map_map]
  exact List.map_congr_left fun t ht => xLog_pos (h t ht)

theorem C171_times_counterexample (ts : List ℝ) (k : Nat) (h : ts[k]? = some 0) : (xLogTimes ts)[k]? = some .ninf := by
  rw [xLogTimes, List.getElem?_map, h]
  simp [XR.log]

/-! ## The hypotheses can be met -/

/-- Outputs 1, `inf`, 0. -/
def exInf : List XR := [.fin 1, .pinf, .fin 0]

example : ∃ Z, xNormalize exInf "stats" = .ok Z ∧ Z[0]? = some .ninf ∧ Z[1]? = some .nan ∧ Z[2]? = some .ninf := by
  obtain ⟨Z, h1, _, h2⟩ := C171_stats_counterexample exInf (by simp [exInf, NumberOrInf]) (by simp [exInf])
  exact ⟨Z, h1, h2 0 _ rfl, h2 1 _ rfl, h2 2 _ rfl⟩

example : ∃ Z, xNormalize exInf "maxmin" = .ok Z ∧ Z[0]? = some (.fin (-1)) ∧ Z[2]? = some (.fin (-1)) := by
  obtain ⟨Z, h1, _, h2⟩ := C171_range_counterexample exInf (by simp [exInf, NumberOrInf]) (by simp [exInf])
    ⟨1, by simp [exInf]⟩
  exact ⟨Z, h1, h2 0 _ rfl, h2 2 _ rfl⟩

example : ∃ r, infComputeResults [[1], [2], [3]] [((1 : ℝ) : EReal), ⊤, ((0 : ℝ) : EReal)] = .ok r ∧ r.fxOpt ≠ ⊤ := by
  obtain ⟨r, i, h, _, _, _, h2, _⟩ := C171_optimum [[1], [2], [3]] [((1 : ℝ) : EReal), ⊤, ((0 : ℝ) : EReal)] rfl (by simp)
  exact ⟨r, h, h2 ⟨_, List.mem_cons_self, EReal.coe_ne_top 1⟩⟩

end GPyOpt.Props
