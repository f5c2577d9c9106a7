import Verif.Model.General
import Verif.Lemmas.Py
import Mathlib.Tactic.Linarith
import Mathlib.Tactic.FieldSimp
import Mathlib.Tactic.Ring
import Mathlib.Algebra.Order.BigOperators.Group.List
import Mathlib.Algebra.BigOperators.Ring.List

/-!
# Properties C53–C55: normalization and merging
-/

namespace GPyOpt.Props

open GPyOpt

/-- All entries are equal. -/
def Constant (Y : List ℝ) : Prop := ∀ a ∈ Y, ∀ b ∈ Y, a = b

theorem sum_map_sub (Y : List ℝ) (c : ℝ) : (Y.map fun y => y - c).sum = Y.sum - Y.length * c := by
  induction Y with
  | nil => simp
  | cons y Y ih => simp only [List.map_cons, List.sum_cons, ih, List.length_cons]; push_cast; ring

theorem sum_map_div (Y : List ℝ) (c : ℝ) : (Y.map fun y => y / c).sum = Y.sum / c := by
  induction Y with
  | nil => simp
  | cons y Y ih => simp only [List.map_cons, List.sum_cons, ih]; ring

theorem length_ne_zero {Y : List ℝ} (h : Y ≠ []) : (Y.length : ℝ) ≠ 0 := by
  have := List.length_pos_of_ne_nil h
  positivity

theorem centred_sum {Y : List ℝ} (h : Y ≠ []) : (Y.map fun y => y - meanR Y).sum = 0 := by
  rw [sum_map_sub, meanR]
  have := length_ne_zero h
  field_simp
  ring

theorem sq_sum_nonneg (Y : List ℝ) (c : ℝ) : 0 ≤ (Y.map fun y => (y - c) ^ 2).sum := by
  apply List.sum_nonneg
  intro a ha
  obtain ⟨y, -, rfl⟩ := List.mem_map.1 ha
  positivity

theorem sq_sum_zero {Y : List ℝ} {c : ℝ} (h : (Y.map fun y => (y - c) ^ 2).sum = 0) : ∀ y ∈ Y, y = c := by
  induction Y with
  | nil => simp
  | cons y Y ih =>
    simp only [List.map_cons, List.sum_cons] at h
    have h1 := sq_sum_nonneg Y c
    have h2 := sq_nonneg (y - c)
    have h3 : (y - c) ^ 2 = 0 := by linarith
    have h4 : (Y.map fun y => (y - c) ^ 2).sum = 0 := by linarith
    intro z hz
    rcases List.mem_cons.1 hz with rfl | hz
    · have := pow_eq_zero_iff (two_ne_zero) |>.1 h3; linarith
    · exact ih h4 z hz

theorem mean_const {Y : List ℝ} (h : Y ≠ []) (hc : Constant Y) : ∀ y ∈ Y, y = meanR Y := by
  intro y hy
  have hs : Y.sum = Y.length * y := by
    have : ∀ Z : List ℝ, (∀ z ∈ Z, z = y) → Z.sum = Z.length * y := by
      intro Z
      induction Z with
      | nil => simp
      | cons z Z ih =>
        intro hz
        rw [List.sum_cons, ih (fun a ha => hz a (by simp [ha])), hz z (by simp), List.length_cons]
        push_cast; ring
    exact this Y fun z hz => hc z hz y hy
  rw [meanR, hs]
  have := length_ne_zero h
  field_simp

theorem std_pos_iff {Y : List ℝ} (h : Y ≠ []) : 0 < stdR Y ↔ ¬ Constant Y := by
  have hl : (0 : ℝ) < Y.length := by
    have := List.length_pos_of_ne_nil h
    positivity
  constructor
  · intro hs hc
    rw [stdR, Real.sqrt_pos] at hs
    have : (Y.map fun y => (y - meanR Y) ^ 2).sum = 0 := by
      apply List.sum_eq_zero
      intro a ha
      obtain ⟨y, hy, rfl⟩ := List.mem_map.1 ha
      rw [← mean_const h hc y hy]; ring
    rw [this] at hs
    simp at hs
  · intro hc
    rw [stdR, Real.sqrt_pos]
    apply div_pos _ hl
    refine lt_of_le_of_ne (sq_sum_nonneg _ _) ?_
    intro h0
    apply hc
    intro a ha b hb
    rw [sq_sum_zero h0.symm a ha, sq_sum_zero h0.symm b hb]

theorem std_nonpos {Y : List ℝ} (h : ¬ 0 < stdR Y) : stdR Y = 0 :=
  le_antisymm (not_lt.1 h) (Real.sqrt_nonneg _)

/-- The array has one dimension, or a single dimension differs from one. -/
def VectorShape (shape : List Nat) : Prop :=
  shape ≠ [] ∧ shape.foldl max 0 = shape.foldl (· * ·) 1

/-- C53. Statistics normalization of every non-empty vector: zero mean; unit standard deviation (the
squares sum up to the number of entries) unless the vector is constant, then zero; and the order of
the entries, position by position, is preserved in both directions. -/
theorem C53_stats_normalization (shape : List Nat) (hs : VectorShape shape) (Y : List ℝ) (hY : Y ≠ []) :
    ∃ Z, normalize shape Y "stats" = .ok Z ∧ Z.length = Y.length ∧ Z.sum = 0 ∧
      (¬ Constant Y → (Z.map fun z => z ^ 2).sum = (Y.length : ℝ)) ∧
      (Constant Y → ∀ z ∈ Z, z = 0) ∧
      ∀ (i j : Nat) (yi yj zi zj : ℝ), Y[i]? = some yi → Y[j]? = some yj → Z[i]? = some zi →
        Z[j]? = some zj → (zi ≤ zj ↔ yi ≤ yj) := by
  have hl := length_ne_zero hY
  have hlp : (0 : ℝ) < Y.length := lt_of_le_of_ne (Nat.cast_nonneg _) (Ne.symm hl)
  unfold normalize
  rw [if_neg (by simp [hs.1, hY]), if_neg (by simp [hs.2]), if_pos rfl]
  simp only
  by_cases hpos : 0 < stdR Y
  · rw [if_pos hpos]
    refine ⟨_, rfl, by simp, ?_, ?_, ?_, ?_⟩
    · rw [sum_map_div, centred_sum hY, zero_div]
    · intro _
      have h1 : (stdR Y) ^ 2 = (Y.map fun y => (y - meanR Y) ^ 2).sum / Y.length := by
        rw [stdR, Real.sq_sqrt (div_nonneg (sq_sum_nonneg _ _) hlp.le)]
      have h2 : (((Y.map fun y => y - meanR Y).map fun y => y / stdR Y).map fun z => z ^ 2)
          = (Y.map fun y => (y - meanR Y) ^ 2).map fun y => y / (stdR Y) ^ 2 := by
        simp only [List.map_map]
        apply List.map_congr_left
        intro y _
        simp only [Function.comp]
        rw [div_pow]
      rw [h2, sum_map_div]
      have h3 : (stdR Y) ^ 2 ≠ 0 := pow_ne_zero _ hpos.ne'
      rw [div_eq_iff h3, h1]
      field_simp
    · intro hc; exact absurd hc ((std_pos_iff hY).1 hpos)
    · intro i j yi yj zi zj h1 h2 h3 h4
      simp only [List.getElem?_map, h1, h2, Option.map_some, Option.some.injEq] at h3 h4
      rw [← h3, ← h4, div_le_div_iff_of_pos_right hpos]
      constructor <;> intro h <;> linarith
  · rw [if_neg hpos]
    have hc : Constant Y := by
      by_contra hc
      exact hpos ((std_pos_iff hY).2 hc)
    have hz : ∀ z ∈ Y.map (fun y => y - meanR Y), z = 0 := by
      intro z hz
      obtain ⟨y, hy, rfl⟩ := List.mem_map.1 hz
      rw [← mean_const hY hc y hy, sub_self]
    refine ⟨_, rfl, by simp, centred_sum hY, fun h => absurd hc h, fun _ => hz, ?_⟩
    intro i j yi yj zi zj h1 h2 h3 h4
    have e1 := hc yi (List.mem_of_getElem? h1) yj (List.mem_of_getElem? h2)
    rw [hz zi (List.mem_of_getElem? h3), hz zj (List.mem_of_getElem? h4), e1]
    simp

/-! ## Minimum and maximum -/

theorem foldl_min_spec (Y : List ℝ) (a : ℝ) :
    (∀ y ∈ Y, Y.foldl min a ≤ y) ∧ Y.foldl min a ≤ a ∧ (Y.foldl min a = a ∨ Y.foldl min a ∈ Y) := by
  induction Y generalizing a with
  | nil => simp
  | cons y Y ih =>
    obtain ⟨h1, h2, h3⟩ := ih (min a y)
    simp only [List.foldl_cons]
    refine ⟨?_, h2.trans (min_le_left _ _), ?_⟩
    · intro z hz
      rcases List.mem_cons.1 hz with rfl | hz
      · exact h2.trans (min_le_right _ _)
      · exact h1 z hz
    · rcases h3 with h3 | h3
      · rcases min_choice a y with h | h
        · left; rw [h3, h]
        · right; rw [h3, h]; simp
      · right; simp [h3]

theorem foldl_max_spec (Y : List ℝ) (a : ℝ) :
    (∀ y ∈ Y, y ≤ Y.foldl max a) ∧ a ≤ Y.foldl max a ∧ (Y.foldl max a = a ∨ Y.foldl max a ∈ Y) := by
  induction Y generalizing a with
  | nil => simp
  | cons y Y ih =>
    obtain ⟨h1, h2, h3⟩ := ih (max a y)
    simp only [List.foldl_cons]
    refine ⟨?_, (le_max_left _ _).trans h2, ?_⟩
    · intro z hz
      rcases List.mem_cons.1 hz with rfl | hz
      · exact (le_max_right _ _).trans h2
      · exact h1 z hz
    · rcases h3 with h3 | h3
      · rcases max_choice a y with h | h
        · left; rw [h3, h]
        · right; rw [h3, h]; simp
      · right; simp [h3]

theorem minR_spec {Y : List ℝ} (h : Y ≠ []) : minR Y ∈ Y ∧ ∀ y ∈ Y, minR Y ≤ y := by
  obtain ⟨h1, -, h3⟩ := foldl_min_spec Y (Y.headD 0)
  refine ⟨?_, h1⟩
  rcases h3 with h3 | h3
  · unfold minR; rw [h3]
    match Y, h with
    | y :: Y, _ => simp
  · exact h3

theorem maxR_spec {Y : List ℝ} (h : Y ≠ []) : maxR Y ∈ Y ∧ ∀ y ∈ Y, y ≤ maxR Y := by
  obtain ⟨h1, -, h3⟩ := foldl_max_spec Y (Y.headD 0)
  refine ⟨?_, h1⟩
  rcases h3 with h3 | h3
  · unfold maxR; rw [h3]
    match Y, h with
    | y :: Y, _ => simp
  · exact h3

/-- C54. Range normalization of every non-empty vector: entries lie in [-1, 1]; -1 is reached exactly
at the minimal and 1 exactly at the maximal entries; order is preserved; constant vectors become
zero. -/
theorem C54_range_normalization (shape : List Nat) (hs : VectorShape shape) (Y : List ℝ) (hY : Y ≠ []) :
    ∃ Z, normalize shape Y "maxmin" = .ok Z ∧ Z.length = Y.length ∧
      (Constant Y → ∀ z ∈ Z, z = 0) ∧
      (¬ Constant Y → (∀ z ∈ Z, -1 ≤ z ∧ z ≤ 1) ∧ -1 ∈ Z ∧ 1 ∈ Z ∧
        ∀ (i : Nat) (y z : ℝ), Y[i]? = some y → Z[i]? = some z →
          (z = -1 ↔ ∀ v ∈ Y, y ≤ v) ∧ (z = 1 ↔ ∀ v ∈ Y, v ≤ y)) ∧
      ∀ (i j : Nat) (yi yj zi zj : ℝ), Y[i]? = some yi → Y[j]? = some yj → Z[i]? = some zi →
        Z[j]? = some zj → (zi ≤ zj ↔ yi ≤ yj) := by
  unfold normalize
  rw [if_neg (by simp [hs.1, hY]), if_neg (by simp [hs.2]), if_neg (by decide), if_pos rfl]
  simp only
  obtain ⟨m1, m2⟩ := minR_spec hY
  obtain ⟨M1, M2⟩ := maxR_spec hY
  by_cases hpos : 0 < maxR Y - minR Y
  · rw [if_pos hpos]
    have hnc : ¬ Constant Y := fun hc => by
      have := hc _ m1 _ M1; linarith
    have hval : ∀ y : ℝ, 2 * ((y - minR Y) / (maxR Y - minR Y) - 1 / 2)
        = (2 * y - minR Y - maxR Y) / (maxR Y - minR Y) := by
      intro y
      field_simp
      ring
    have hZ : ((Y.map fun y => y - minR Y).map fun y => y / (maxR Y - minR Y)).map
        (fun y => 2 * (y - 1 / 2)) = Y.map fun y => (2 * y - minR Y - maxR Y) / (maxR Y - minR Y) := by
      simp only [List.map_map]
      exact List.map_congr_left fun y _ => hval y
    have hlo : ∀ y : ℝ, (2 * y - minR Y - maxR Y) / (maxR Y - minR Y) = -1 ↔ y = minR Y := by
      intro y
      rw [div_eq_iff hpos.ne']
      constructor <;> intro h <;> linarith
    have hhi : ∀ y : ℝ, (2 * y - minR Y - maxR Y) / (maxR Y - minR Y) = 1 ↔ y = maxR Y := by
      intro y
      rw [div_eq_iff hpos.ne']
      constructor <;> intro h <;> linarith
    rw [hZ]
    refine ⟨_, rfl, by simp, fun hc => absurd hc hnc, fun _ => ⟨?_, ?_, ?_, ?_⟩, ?_⟩
    · intro z hz
      obtain ⟨y, hy, rfl⟩ := List.mem_map.1 hz
      have h1 := m2 y hy
      have h2 := M2 y hy
      constructor
      · rw [le_div_iff₀ hpos]; linarith
      · rw [div_le_iff₀ hpos]; linarith
    · exact List.mem_map.2 ⟨_, m1, (hlo _).2 rfl⟩
    · exact List.mem_map.2 ⟨_, M1, (hhi _).2 rfl⟩
    · intro i y z h1 h2
      simp only [List.getElem?_map, h1, Option.map_some, Option.some.injEq] at h2
      have hy := List.mem_of_getElem? h1
      rw [← h2, hlo, hhi]
      constructor
      · constructor
        · rintro rfl; exact m2
        · intro h; exact le_antisymm (h _ m1) (m2 _ hy)
      · constructor
        · rintro rfl; exact M2
        · intro h; exact le_antisymm (M2 _ hy) (h _ M1)
    · intro i j yi yj zi zj h1 h2 h3 h4
      simp only [List.getElem?_map, h1, h2, Option.map_some, Option.some.injEq] at h3 h4
      rw [← h3, ← h4, div_le_div_iff_of_pos_right hpos]
      constructor <;> intro h <;> linarith
  · rw [if_neg hpos]
    have hle : maxR Y ≤ minR Y := by linarith
    have heq : ∀ y ∈ Y, y = minR Y := fun y hy => le_antisymm ((M2 y hy).trans hle) (m2 y hy)
    have hc : Constant Y := fun a ha b hb => by rw [heq a ha, heq b hb]
    have hz : ∀ z ∈ Y.map (fun y => y - minR Y), z = 0 := by
      intro z hz
      obtain ⟨y, hy, rfl⟩ := List.mem_map.1 hz
      rw [heq y hy, sub_self]
    refine ⟨_, rfl, by simp, fun _ => hz, fun h => absurd hc h, ?_⟩
    intro i j yi yj zi zj h1 h2 h3 h4
    have e1 := hc yi (List.mem_of_getElem? h1) yj (List.mem_of_getElem? h2)
    rw [hz zi (List.mem_of_getElem? h3), hz zj (List.mem_of_getElem? h4), e1]
    simp

/-- Other types and proper matrices are refused. -/
theorem C53_refused (shape : List Nat) (Y : List ℝ) (hY : Y ≠ []) (hne : shape ≠ []) (type : String) :
    (¬ VectorShape shape → normalize shape Y type = .error .notImplemented) ∧
    (VectorShape shape → type ≠ "stats" → type ≠ "maxmin" →
      normalize shape Y type = .error .valueError) := by
  constructor
  · intro h
    unfold normalize
    rw [if_neg (by simp [hne, hY]), if_pos]
    exact fun h' => h ⟨hne, h'⟩
  · intro h h1 h2
    unfold normalize
    rw [if_neg (by simp [hne, hY]), if_neg (by simp [h.2]), if_neg h1, if_neg h2]

/-- Columns and rows have a vector shape, a 2 × 3 matrix has not. -/
example : VectorShape [4, 1] ∧ VectorShape [1, 4] ∧ VectorShape [4] ∧ ¬ VectorShape [2, 3] := by
  refine ⟨⟨by decide, by decide⟩, ⟨by decide, by decide⟩, ⟨by decide, by decide⟩, ?_⟩
  rintro ⟨-, h⟩
  revert h; decide

example : ¬ Constant [1, 2] ∧ Constant [3, 3] := by
  constructor
  · intro h
    have := h 1 (by simp) 2 (by simp)
    norm_num at this
  · intro a ha b hb
    simp at ha hb
    rw [ha, hb]

/-! ## C55 -/

theorem flatten_map_getElem? {α β γ : Type} (A : List α) (B : List β) (f : α → β → γ) (i j : Nat) :
    j < B.length →
    ((A.map fun a => B.map fun b => f a b).flatten)[i * B.length + j]? =
      (A[i]?).bind fun a => (B[j]?).map fun b => f a b := by
  intro hj
  induction A generalizing i with
  | nil => simp
  | cons a A ih =>
    simp only [List.map_cons, List.flatten_cons]
    cases i with
    | zero => rw [List.getElem?_append_left (by simpa using hj)]; simp
    | succ i =>
      rw [List.getElem?_append_right (by simp; nlinarith)]
      have : (i + 1) * B.length + j - (B.map fun b => f a b).length = i * B.length + j := by
        rw [List.length_map, Nat.add_mul]; omega
      rw [this, ih i]
      simp

/-- C55. For arrays with at least one row and one column, row `i * |B| + j` of the merged array is row
`i` of the first followed by row `j` of the second, and there are |A| * |B| rows: each combination
occurs at exactly one place, in lexicographic order. Merging with an array without entries returns the
other array. -/
theorem C55_merge {α : Type} (v1 v2 : Values α) (A B : List (List α)) (hA : valuesToArray v1 = A)
    (hB : valuesToArray v2 = B) :
    ((∃ r ∈ A, r ≠ []) → (∃ r ∈ B, r ≠ []) →
      (mergeValues v1 v2).length = A.length * B.length ∧
      (∀ (i j : Nat) (a b : List α), A[i]? = some a → B[j]? = some b →
        (mergeValues v1 v2)[i * B.length + j]? = some (a ++ b)) ∧
      ∀ r, r ∈ mergeValues v1 v2 ↔ ∃ a ∈ A, ∃ b ∈ B, r = a ++ b) ∧
    ((∀ r ∈ A, r = []) → mergeValues v1 v2 = B) ∧
    ((∃ r ∈ A, r ≠ []) → (∀ r ∈ B, r = []) → mergeValues v1 v2 = A) := by
  have hlen : ∀ A : List (List α), A.flatten.length = 0 ↔ ∀ r ∈ A, r = [] := by
    intro A
    rw [List.length_eq_zero_iff, List.flatten_eq_nil_iff]
  have hnot : ∀ A : List (List α), (∃ r ∈ A, r ≠ []) → ¬ A.flatten.length = 0 := by
    rintro A ⟨r, h1, h2⟩ h
    exact h2 ((hlen A).1 h r h1)
  unfold mergeValues
  simp only [hA, hB]
  refine ⟨?_, ?_, ?_⟩
  · intro h1 h2
    rw [if_neg (hnot A h1), if_neg (hnot B h2)]
    refine ⟨?_, ?_, ?_⟩
    · rw [List.length_flatten, List.map_map]
      have : (List.length ∘ fun r1 => List.map (fun r2 : List α => r1 ++ r2) B) = fun _ => B.length := by
        funext r; simp
      rw [this]
      simp
    · intro i j a b ha hb
      rw [flatten_map_getElem? _ _ _ _ _ (List.getElem?_eq_some_iff.1 hb).1, ha, hb]
      rfl
    · intro r
      simp only [List.mem_flatten, List.mem_map]
      constructor
      · rintro ⟨l, ⟨a, ha, rfl⟩, hr⟩
        obtain ⟨b, hb, rfl⟩ := List.mem_map.1 hr
        exact ⟨a, ha, b, hb, rfl⟩
      · rintro ⟨a, ha, b, hb, rfl⟩
        exact ⟨_, ⟨a, ha, rfl⟩, List.mem_map.2 ⟨b, hb, rfl⟩⟩
  · intro h
    rw [if_pos ((hlen A).2 h)]
  · intro h1 h2
    rw [if_neg (hnot A h1), if_pos ((hlen B).2 h2)]

example : mergeValues (.tuple [1, 2]) (.array2 [[3, 4], [5, 6], [7, 8]])
    = [[1, 3, 4], [1, 5, 6], [1, 7, 8], [2, 3, 4], [2, 5, 6], [2, 7, 8]] := by decide

end GPyOpt.Props
