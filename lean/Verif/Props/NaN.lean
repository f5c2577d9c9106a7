import Verif.Props.Records
import Verif.Model.NaN

/-! # C119: evaluations that fail with `nan` -/

namespace GPyOpt.Props

open GPyOpt

section
variable {α : Type} [LinearOrder α]

theorem nanArgminFrom_some (ys : List α) : ∀ (pos best : Nat) (v : α),
    nanArgminFrom (ys.map some) pos best v = argminFrom ys pos best v := by
  induction ys with
  | nil => intros; rfl
  | cons y ys ih => intro pos best v; simp only [List.map_cons, nanArgminFrom, argminFrom, ih]

theorem nanArgminFrom_nan (ys : List α) (rest : List (Option α)) : ∀ (pos best : Nat) (v : α),
    nanArgminFrom (ys.map some ++ none :: rest) pos best v = pos + ys.length := by
  induction ys with
  | nil => intros; rfl
  | cons y ys ih =>
    intro pos best v
    simp only [List.map_cons, List.cons_append, nanArgminFrom, ih, List.length_cons]
    split_ifs <;> omega

theorem foldl_nanMin2_some (ys : List α) : ∀ v : α, (ys.map some).foldl nanMin2 (some v) = some (ys.foldl min v) := by
  induction ys with
  | nil => intros; rfl
  | cons y ys ih => intro v; simp only [List.map_cons, List.foldl_cons, nanMin2, ih]

theorem foldl_nanMin2_none (ys : List (Option α)) : ys.foldl nanMin2 none = none := by
  induction ys with
  | nil => rfl
  | cons y ys ih => simp only [List.foldl_cons]; cases y <;> exact ih

theorem nanMin_of_mem {Y : List (Option α)} (h : none ∈ Y) : nanMin Y = none := by
  unfold nanMin
  generalize Y.headD none = v
  induction Y generalizing v with
  | nil => simp at h
  | cons y Y ih =>
    simp only [List.foldl_cons]
    rcases List.mem_cons.1 h with rfl | h
    · cases v <;> exact foldl_nanMin2_none Y
    · exact ih h _

end

/-- C119 (partial: no `nan`). Without failed evaluations the results are the ones of the theorems on the optimum
(C39). -/
theorem C119_results_partial (X : Mat) (Y : Vec) :
    nanComputeResults X (Y.map some) =
      (computeResults X Y).map fun r => ⟨r.yBest.map some, r.xOpt, some r.fxOpt⟩ := by
  have harg : nanArgmin (Y.map some) = argmin Y := by
    cases Y with
    | nil => rfl
    | cons y ys => simp only [List.map_cons, nanArgmin, argmin, nanArgminFrom_some]
  have hmin : ∀ Z : Vec, Z ≠ [] → nanMin (Z.map some) = some (Z.foldl min (Z.headD 0)) := by
    intro Z hZ
    cases Z with
    | nil => exact absurd rfl hZ
    | cons z zs => exact foldl_nanMin2_some (z :: zs) z
  unfold nanComputeResults computeResults
  rw [harg]
  by_cases hY : Y = []
  · subst hY; rfl
  obtain ⟨i, v, h1, h2, h3, h4⟩ := argmin_spec hY
  simp only [h1]
  cases hx : npGet X i with
  | error e => rfl
  | ok x =>
    have hv : npGet Y i = .ok v := by simp [npGet, h3]
    simp only [hv]
    show Except.ok _ = Except.ok _
    congr 1
    have hfx : Y.foldl min (Y.headD 0) = v := by
      obtain ⟨g1, g2, g3⟩ := foldl_min_le Y (Y.headD 0)
      have hhd : Y.headD 0 ∈ Y := by cases Y with
        | nil => exact absurd rfl hY
        | cons y ys => simp
      apply le_antisymm (g2 v (List.mem_of_getElem? h3))
      have hmem : Y.foldl min (Y.headD 0) ∈ Y := by
        rcases g3 with g3 | g3
        · rw [g3]; exact hhd
        · exact g3
      obtain ⟨j, hj⟩ := List.getElem?_of_mem hmem
      exact (h4 j _ hj).1
    simp only [NanResults.mk.injEq, true_and]
    refine ⟨?_, by rw [hmin Y hY, hfx]⟩
    rw [bestValue, List.map_map, List.length_map]
    apply List.map_congr_left
    intro k hk
    rw [List.mem_range] at hk
    rw [← List.map_take]
    exact hmin _ (by cases Y with
      | nil => exact absurd rfl hY
      | cons y ys => simp)

/-- C119 is false. A single `nan` becomes the reported optimum, whatever has been found before and after: with the first
`nan` at the `k`-th evaluation, `x_opt` is its location, `fx_opt` is `nan`, and `Y_best` is `nan` from there on. -/
theorem C119_nan_counterexample (X : Mat) (before : Vec) (after : List (Option ℚ)) (x : Vec)
    (hx : X[before.length]? = some x) :
    ∃ r, nanComputeResults X (before.map some ++ none :: after) = .ok r ∧ r.xOpt = x ∧ r.fxOpt = none ∧
      ∀ k, before.length ≤ k → k < before.length + 1 + after.length → r.yBest[k]? = some none := by
  have ha : nanArgmin (before.map some ++ none :: after) = .ok before.length := by
    cases before with
    | nil => rfl
    | cons y ys =>
      simp only [List.map_cons, List.cons_append, nanArgmin, nanArgminFrom_nan, List.length_cons, Except.ok.injEq]
      omega
  have hr : nanComputeResults X (before.map some ++ none :: after) = .ok
      { yBest := (List.range (before.map some ++ none :: after).length).map fun k =>
          nanMin ((before.map some ++ none :: after).take (k + 1))
        xOpt := x, fxOpt := nanMin (before.map some ++ none :: after) } := by
    simp only [nanComputeResults, ha, npGet, hx]
  refine ⟨_, hr, rfl, nanMin_of_mem (by simp), ?_⟩
  intro k h1 h2
  rw [List.getElem?_map, List.getElem?_range (by simp; omega)]
  simp only [Option.map_some, Option.some.injEq]
  apply nanMin_of_mem
  rw [List.mem_take_iff_getElem]
  exact ⟨before.length, by simp; omega, by simp⟩

/-- C119 is false for the data of the model too: one `nan` turns all normalized outputs into `nan`. -/
theorem C119_normalized_counterexample (Y : List (Option ℝ)) (h : none ∈ Y) :
    nanNormalize Y = Y.map fun _ => none := by
  have hr : ∀ {β : Type} (f : List ℝ → β), nanReduce f Y = none := by
    intro β f
    unfold nanReduce
    rw [if_neg]
    intro hall
    simpa using List.all_eq_true.1 hall none h
  unfold nanNormalize
  simp only [hr, nanScalar]

/-- Without `nan` the normalization is the one of the theorems on normalization (C53). -/
theorem C119_normalize_partial (Y : List ℝ) (h : Y ≠ []) :
    ∃ Z, normalize [Y.length, 1] Y "stats" = .ok Z ∧ nanNormalize (Y.map some) = Z.map some := by
  have hr : ∀ {β : Type} (f : List ℝ → β), nanReduce f (Y.map some) = some (f Y) := by
    intro β f
    unfold nanReduce
    rw [if_pos (by simp), List.filterMap_map]
    simp
  have hshape : ¬ List.foldl max 0 [Y.length, 1] ≠ List.foldl (· * ·) 1 [Y.length, 1] := by
    have := List.length_pos_iff.2 h
    simp
    omega
  unfold normalize nanNormalize
  simp only [hr]
  rw [if_neg (by simp [h]), if_neg hshape, if_pos trivial]
  by_cases hs : 0 < stdR Y
  · exact ⟨_, if_pos hs, by rw [if_pos hs]; simp [nanScalar]⟩
  · exact ⟨_, if_neg hs, by rw [if_neg hs]; simp [nanScalar]⟩

/-- The best value 1 is not reported. -/
example : nanComputeResults [[0], [1], [2], [3]] [some 3, some 1, none, some 2] =
    .ok ⟨[some 3, some 1, none, none], [2], none⟩ := by decide +kernel

example : nanComputeResults [[0], [1], [2]] [some 3, some 1, some 2] =
    .ok ⟨[some 3, some 1, some 1], [1], some 1⟩ := by decide +kernel

end GPyOpt.Props
