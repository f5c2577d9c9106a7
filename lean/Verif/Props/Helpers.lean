import Verif.Model.Helpers
import Verif.Props.General
import Mathlib.Analysis.Calculus.Deriv.Mul
import Mathlib.Analysis.Calculus.Deriv.Add

/-!
# Property C115: helpers of `util.general`
-/

namespace GPyOpt.Props

open GPyOpt

/-- C115. The samples: as many as asked for, each with one coordinate per variable, inside of the bounds, and the map from
the generator is the affine one. -/
theorem C115_uniform_samples (bounds : List (ℚ × ℚ)) (n : Nat) (u : Nat → Nat → ℚ)
    (hb : ∀ b ∈ bounds, b.1 ≤ b.2) (hu : ∀ r k, 0 ≤ u r k ∧ u r k ≤ 1) :
    (uniformSamples bounds n u).length = n ∧
    ∀ (r : Nat) (row : Vec), (uniformSamples bounds n u)[r]? = some row → row.length = bounds.length ∧
      ∀ (k : Nat) (lo hi : ℚ), bounds[k]? = some (lo, hi) → ∃ v, row[k]? = some v ∧ lo ≤ v ∧ v ≤ hi ∧
        v - lo = u r k * (hi - lo) := by
  refine ⟨by simp [uniformSamples], ?_⟩
  intro r row hr
  unfold uniformSamples at hr
  rw [List.getElem?_map] at hr
  simp only [Option.map_eq_some_iff] at hr
  obtain ⟨r', hr', rfl⟩ := hr
  have hrr : r' = r := by
    rw [List.getElem?_range] at hr'
    · exact (Option.some.inj hr').symm
    · by_contra hlt
      rw [List.getElem?_eq_none (by simpa using hlt)] at hr'
      cases hr'
  subst hrr
  refine ⟨by simp, ?_⟩
  intro k lo hi hk
  refine ⟨lo + (hi - lo) * u r' k, ?_, ?_, ?_, by ring⟩
  · simp [List.getElem?_map, List.getElem?_zipIdx, hk]
  · have h1 := hb _ (List.mem_of_getElem? hk)
    have h2 := (hu r' k).1
    have : 0 ≤ (hi - lo) * u r' k := mul_nonneg (by simpa using h1) h2
    linarith
  · have h1 := hb _ (List.mem_of_getElem? hk)
    have h2 := (hu r' k).2
    have h3 : lo ≤ hi := h1
    nlinarith

example : uniformSamples [(0, 1), (-2, 4)] 2 (fun r k => if r = k then 1/2 else 0)
    = [[1/2, -2], [0, 1]] := by decide +kernel

/-- C115. The moments: mean, root of the variance (zero if the variance is negative), and the smallest mean at the data. -/
theorem C115_moments (predict : List ℝ → ℝ × ℝ) (X : List (List ℝ)) (hX : X ≠ []) (x : List ℝ) :
    ∃ m s fmin, getMoments predict X x = .ok (m, s, fmin) ∧ m = (predict x).1 ∧ 0 ≤ s ∧
      (0 ≤ (predict x).2 → s ^ 2 = (predict x).2) ∧ ((predict x).2 ≤ 0 → s = 0) ∧
      (∃ z ∈ X, fmin = (predict z).1) ∧ ∀ z ∈ X, fmin ≤ (predict z).1 := by
  have hne : X.map (fun z => (predict z).1) ≠ [] := by simpa using hX
  obtain ⟨m1, m2⟩ := minR_spec hne
  refine ⟨(predict x).1, Real.sqrt (max (predict x).2 0), minR (X.map fun z => (predict z).1), ?_, rfl,
    Real.sqrt_nonneg _, ?_, ?_, ?_, ?_⟩
  · unfold getMoments
    rw [if_neg hX]
  · intro h; rw [max_eq_left h, Real.sq_sqrt h]
  · intro h; rw [max_eq_right h, Real.sqrt_zero]
  · obtain ⟨z, hz, he⟩ := List.mem_map.1 m1
    exact ⟨z, hz, he.symm⟩
  · intro z hz
    exact m2 _ (List.mem_map_of_mem hz)

/-- C115. Where the variance is positive, the derivatives are those of the moments. -/
theorem C115_moment_derivatives (m v : ℝ → ℝ) (dm dv x : ℝ) (hm : HasDerivAt m dm x) (hv : HasDerivAt v dv x)
    (hpos : 0 < v x) :
    HasDerivAt m (getDMoments (v x) dm dv).1 x ∧
    HasDerivAt (fun y => Real.sqrt (max (v y) 0)) (getDMoments (v x) dm dv).2 x := by
  refine ⟨hm, ?_⟩
  have h1 := hv.sqrt hpos.ne'
  refine h1.congr_of_eventuallyEq ?_
  filter_upwards [hv.continuousAt.eventually (lt_mem_nhds hpos)] with y hy
  rw [max_eq_left hy.le]

example : HasDerivAt (fun y : ℝ => y) 1 4 ∧ (0 : ℝ) < (fun y : ℝ => y) 4 := ⟨hasDerivAt_id 4, by norm_num⟩

/-- C115 (partial: one column only, see `C115_evaluate_counterexample`). For inputs with one column and a function with one
output, the outputs are those of the function, one per row in order, with the times the evaluations take. -/
theorem C115_evaluate_partial (f : Vec → ℚ) (t : Nat → ℚ) (i : Nat) (X : Mat) :
    evaluateFunction (fun x => .ok [f x]) t 1 i X
      = .ok (X.map fun x => [f x], (List.range X.length).map fun k => t (2 * (i + k) + 1) - t (2 * (i + k))) := by
  induction X generalizing i with
  | nil => rfl
  | cons x xs ih =>
    unfold evaluateFunction
    simp only [broadcastRow, List.length_singleton, if_true, List.headD_cons, ih]
    simp only [List.map_cons, List.length_cons, List.range_succ_eq_map, List.map_map, Except.ok.injEq, Prod.mk.injEq]
    refine ⟨rfl, ?_⟩
    rw [Nat.add_zero]
    congr 1
    apply List.map_congr_left
    intro k _
    simp only [Function.comp_def, Nat.succ_eq_add_one]
    rw [show i + 1 + k = i + (k + 1) by omega]

/-- C115 (negation of the full property). The matrix of outputs has as many columns as the inputs: every output is repeated
`d` times, and a function with two outputs raises for inputs with three columns. -/
theorem C115_evaluate_counterexample (f : Vec → ℚ) (t : Nat → ℚ) (d i : Nat) (x : Vec) :
    (∃ T, evaluateFunction (fun x => .ok [f x]) t d i [x] = .ok ([List.replicate d (f x)], T)) ∧
    evaluateFunction (fun _ => .ok [1, 2]) t 3 i [x] = .error .valueError :=
  ⟨⟨_, rfl⟩, rfl⟩

/-- C115 (negation). The integrated acquisition asks for an attribute the integrated model does not have. -/
theorem C115_integrated_counterexample (num : Nat) (value : Nat → ℝ) :
    integratedAcquisition mcmcAttributes num value = .error .attributeError := rfl

/-- C115 (partial). For a model with this attribute it would be the average over the samples. -/
theorem C115_integrated_partial (attrs : List String) (ha : "num_hmc_samples" ∈ attrs) (num : Nat) (hn : 0 < num)
    (value : Nat → ℝ) :
    ∃ a, integratedAcquisition attrs num value = .ok a ∧ num * a = ∑ i ∈ Finset.range num, value i := by
  refine ⟨((List.range num).map value).sum / num, ?_, ?_⟩
  · unfold integratedAcquisition
    rw [if_pos (by simpa using ha), if_neg (by omega)]
  · have : (num : ℝ) ≠ 0 := by exact_mod_cast hn.ne'
    rw [mul_div_cancel₀ _ this]
    rfl

example : "num_hmc_samples" ∈ ["model", "num_hmc_samples"] := by simp

theorem foldl_min_isLeast {α : Type} [LinearOrder α] : ∀ (l : List α) (a : α),
    IsLeast {y | y = a ∨ y ∈ l} (l.foldl min a)
  | [], a => ⟨Or.inl rfl, by rintro y (rfl | hy); exact le_rfl; simp at hy⟩
  | b :: l, a => by
    obtain ⟨h1, h2⟩ := foldl_min_isLeast l (min a b)
    refine ⟨?_, ?_⟩
    · rcases h1 with h1 | h1
      · rw [List.foldl_cons, h1]
        rcases min_choice a b with h | h
        · exact Or.inl h
        · exact Or.inr (by rw [h]; simp)
      · exact Or.inr (List.mem_cons_of_mem _ h1)
    · have h3 := h2 (Or.inl rfl)
      rintro y (rfl | hy)
      · exact h3.trans (min_le_left _ _)
      · rcases List.mem_cons.1 hy with rfl | hy
        · exact h3.trans (min_le_right _ _)
        · exact h2 (Or.inr hy)

theorem foldl_max_isGreatest {α : Type} [LinearOrder α] (l : List α) (a : α) :
    IsGreatest {y | y = a ∨ y ∈ l} (l.foldl max a) := by
  have h := foldl_min_isLeast (α := αᵒᵈ) l a
  exact h

/-- C115. `best_value` has one entry per output; the `i`-th one is the smallest (for `sign = 1`) or the largest of the
outputs up to and including the `i`-th. -/
theorem C115_best_value {α : Type} [LinearOrder α] (dflt : α) (Y : List α) (sign : Int) :
    (bestValueSign dflt Y sign).length = Y.length ∧
    ∀ (i : Nat) (v : α), (bestValueSign dflt Y sign)[i]? = some v →
      (sign = 1 → IsLeast {y | y ∈ Y.take (i + 1)} v) ∧ (sign ≠ 1 → IsGreatest {y | y ∈ Y.take (i + 1)} v) := by
  refine ⟨by simp [bestValueSign], fun i v hv => ?_⟩
  unfold bestValueSign at hv
  rw [List.getElem?_map] at hv
  simp only [Option.map_eq_some_iff] at hv
  obtain ⟨j, hj, rfl⟩ := hv
  rw [List.getElem?_eq_some_iff] at hj
  obtain ⟨hlt, hij⟩ := hj
  rw [List.length_range] at hlt
  rw [List.getElem_range] at hij
  subst hij
  have hset : {y | y = (Y.take (i + 1)).headD dflt ∨ y ∈ Y.take (i + 1)} = {y | y ∈ Y.take (i + 1)} := by
    cases Y with
    | nil => simp at hlt
    | cons y Y => ext z; simp
  refine ⟨fun hs => ?_, fun hs => ?_⟩
  · have := foldl_min_isLeast (Y.take (i + 1)) ((Y.take (i + 1)).headD dflt)
    rw [hset] at this
    simpa [hs] using this
  · have := foldl_max_isGreatest (Y.take (i + 1)) ((Y.take (i + 1)).headD dflt)
    rw [hset] at this
    simpa [hs] using this

example : bestValueSign (0 : ℚ) [3, 1, 2, -1] 1 = [3, 1, 1, -1] ∧ bestValueSign (0 : ℚ) [3, 1, 4, -1] (-1) = [3, 3, 4, 4] := by
  decide +kernel

/-- C115. `best_guess` of a function that is evaluated row by row: the `i`-th entry is its smallest value at the first
`i + 1` locations. -/
theorem C115_best_guess (g : Vec → ℚ) (X : Mat) :
    ∃ r, bestGuess (fun m => m.map g) X = .ok r ∧ r.length = X.length ∧
      ∀ (i : Nat) (v : ℚ), r[i]? = some v → IsLeast {y | ∃ x ∈ X.take (i + 1), y = g x} v := by
  have key : ∀ i ∈ List.range X.length, ∃ v, (do
      let k ← argmin ((X.take (i + 1)).map g)
      npGet ((X.take (i + 1)).map g) k : Py ℚ) = .ok v ∧ IsLeast {y | ∃ x ∈ X.take (i + 1), y = g x} v := by
    intro i hi
    have hne : (X.take (i + 1)).map g ≠ [] := by
      cases X with
      | nil => simp at hi
      | cons x X => simp
    obtain ⟨k, v, h1, h2, h3, h4⟩ := argmin_spec hne
    refine ⟨v, ?_, ?_, ?_⟩
    · rw [h1]
      show npGet ((X.take (i + 1)).map g) k = .ok v
      unfold npGet
      rw [h3]
    · obtain ⟨x, hx, rfl⟩ := List.mem_map.1 (List.mem_of_getElem? h3)
      exact ⟨x, hx, rfl⟩
    · rintro y ⟨x, hx, rfl⟩
      obtain ⟨j, hj⟩ := List.getElem?_of_mem (List.mem_map_of_mem (f := g) hx)
      exact (h4 j _ hj).1
  choose! w hw1 hw2 using key
  refine ⟨(List.range X.length).map w, mapE_map_ok hw1, by simp, fun i v hv => ?_⟩
  rw [List.getElem?_map] at hv
  simp only [Option.map_eq_some_iff] at hv
  obtain ⟨j, hj, rfl⟩ := hv
  have hmem := List.mem_of_getElem? hj
  rw [List.getElem?_eq_some_iff] at hj
  obtain ⟨hlt, hij⟩ := hj
  rw [List.getElem_range] at hij
  subst hij
  exact hw2 _ hmem

example : bestGuess (fun m => m.map fun x => x.headD 0) [[2], [1], [3]] = .ok [2, 1, 1] := by decide +kernel

/-- C115 (negation). Neither does the version with gradients. -/
theorem C115_integrated_gradient_counterexample (num : Nat) (value grad : Nat → ℝ) :
    integratedGradient mcmcAttributes num value grad = .error .attributeError := rfl

/-- C115 (partial). For a model with this attribute it would return the value of the integrated acquisition and its
derivative. -/
theorem C115_integrated_gradient_partial (attrs : List String) (ha : "num_hmc_samples" ∈ attrs) (num : Nat) (hn : 0 < num)
    (value : ℝ → Nat → ℝ) (grad : Nat → ℝ) (x : ℝ) (hg : ∀ i < num, HasDerivAt (fun y => value y i) (grad i) x) :
    ∃ (F : ℝ → ℝ) (d : ℝ), (∀ y, integratedAcquisition attrs num (value y) = .ok (F y)) ∧
      integratedGradient attrs num (value x) grad = .ok (F x, d) ∧ HasDerivAt F d x := by
  have ha' : attrs.contains "num_hmc_samples" = true := by simpa using ha
  refine ⟨fun y => ((List.range num).map (value y)).sum / num, ((List.range num).map grad).sum / num, fun y => ?_, ?_, ?_⟩
  · unfold integratedAcquisition
    rw [if_pos ha', if_neg (by omega)]
  · unfold integratedGradient
    rw [if_pos ha', if_neg (by omega)]
  · refine HasDerivAt.div_const ?_ _
    have := HasDerivAt.fun_sum (u := Finset.range num) (A := fun i y => value y i) (A' := grad) (x := x)
      (fun i hi => hg i (Finset.mem_range.1 hi))
    exact this

example : ∀ i : ℕ, i < 3 → HasDerivAt (fun y : ℝ => (i : ℝ) * y) ((i : ℝ) * 1) 2 := fun i _ => (hasDerivAt_id 2).const_mul (i : ℝ)

end GPyOpt.Props
