import Verif.Props.LocalPenalization
import Verif.Lemmas.GaussMoments

/-!
# What local penalization keeps and what it excludes (C150)
-/

namespace GPyOpt.Props

open Filter
open scoped Topology
open GPyOpt.Spec

variable {d : Nat}

/-! ## Specification -/

/-- `f` changes by at most `L` per unit of Euclidean distance on `D`. -/
def SlopeAtMost (f : Pt d → ℝ) (L : ℝ) (D : Set (Pt d)) : Prop :=
  ∀ x ∈ D, ∀ y ∈ D, |f x - f y| ≤ L * √(∑ j, (x j - y j) ^ 2)

/-- The prediction at `c` is off by at most `k` predicted deviations. -/
def PredictsWithin (predict : Pt d → ℝ × ℝ) (f : Pt d → ℝ) (k : ℝ) (c : Pt d) : Prop :=
  |(predict c).1 - f c| ≤ k * (predict c).2

/-! ## Penalizers -/

theorem hammer_ge {f : Pt d → ℝ} {L Min k : ℝ} {D : Set (Pt d)} (hL : 0 < L) (hf : SlopeAtMost f L D)
    (hk : 0 ≤ k) {B : ℝ} (hB : 0 ≤ B) {predict : Pt d → ℝ × ℝ} {c x : Pt d} (hc : c ∈ D) (hx : x ∈ D)
    (hcal : PredictsWithin predict f k c) (hdev : (predict c).2 ≤ B ^ 2) (hmin : f x ≤ Min) :
    Real.log (ncdf (-(k * B))) ≤ hammerValue (hammerPrecompute L Min predict c) x := by
  refine Real.log_le_log (ncdf_pos _) (ncdf_strictMono.monotone ?_)
  simp only [hammerPrecompute]
  set p : ℝ := if (predict c).2 < 1 / 10 ^ 16 then 1 / 10 ^ 16 else (predict c).2 with hp
  have hp0 : 0 < p := by
    rw [hp]
    split
    · norm_num
    · rename_i h
      exact lt_of_lt_of_le (by norm_num) (not_lt.1 h)
  have hs : 0 < √p := Real.sqrt_pos.2 hp0
  have hle : (predict c).2 ≤ B * √p := by
    rcases le_or_gt (predict c).2 0 with h0 | h0
    · exact h0.trans (mul_nonneg hB hs.le)
    · have h1 : (predict c).2 ≤ p := by
        rw [hp]
        split
        · rename_i h; exact h.le
        · exact le_rfl
      have h2 : √(predict c).2 ≤ B := by
        rw [← Real.sqrt_sq hB]
        exact Real.sqrt_le_sqrt hdev
      calc (predict c).2 = √(predict c).2 * √(predict c).2 := (Real.mul_self_sqrt h0.le).symm
        _ ≤ B * √p := mul_le_mul h2 (Real.sqrt_le_sqrt h1) (Real.sqrt_nonneg _) hB
  have h1 := (abs_le.1 (hf x hx c hc)).1
  have h2 := (abs_le.1 hcal).2
  have h3 : k * (predict c).2 ≤ k * (B * √p) := mul_le_mul_of_nonneg_left hle hk
  have he : euclid x c = √(∑ j, (x j - c j) ^ 2) := rfl
  rw [le_div_iff₀ (div_pos hs hL), he]
  have h4 : (predict c).1 - Min - k * (B * √p) ≤ L * √(∑ j, (x j - c j) ^ 2) := by linarith
  have h5 : ((predict c).1 - Min - k * (B * √p)) / L ≤ √(∑ j, (x j - c j) ^ 2) := by
    rw [div_le_iff₀ hL]; linarith
  have h6 : ((predict c).1 - Min - k * (B * √p)) / L = ((predict c).1 - Min) / L - k * B * (√p / L) := by ring
  linarith

theorem sum_ge_length {X : List (Pt d)} {g : Pt d → ℝ} {b : ℝ} (h : ∀ c ∈ X, b ≤ g c) :
    X.length * b ≤ (X.map g).sum := by
  induction X with
  | nil => simp
  | cons a l ih =>
    have h1 := h a (by simp)
    have h2 := ih fun c hc => h c (by simp [hc])
    simp only [List.length_cons, Nat.cast_add, Nat.cast_one, List.map_cons, List.sum_cons]
    linarith

/-- **C150.** The constant `L` bounds the slope of the objective, the predictions at the locations of the batch are off by at
most `k` deviations, which are at most `B ^ 2`. Then penalization costs a location `x` that is at least as good as the incumbent
at most a factor `Phi(-k B)` per location of the batch (`B` and not 1, because the code takes the root of the deviation, C81). -/
theorem C150_better_kept (t : LPTransform) (acq : ℝ) (f : Pt d → ℝ) (L Min k B : ℝ) (D : Set (Pt d)) (hL : 0 < L)
    (hf : SlopeAtMost f L D) (hk : 0 ≤ k) (hB : 0 ≤ B) (predict : Pt d → ℝ × ℝ) (X : List (Pt d))
    (hX : ∀ c ∈ X, c ∈ D ∧ PredictsWithin predict f k c ∧ (predict c).2 ≤ B ^ 2) (x : Pt d) (hx : x ∈ D) (hmin : f x ≤ Min) :
    lpValue t acq (lpUpdateBatches (some X) L Min predict) x ≤ lpValue t acq none x - X.length * Real.log (ncdf (-(k * B))) := by
  have h := sum_ge_length (X := X) (g := fun c => hammerValue (hammerPrecompute L Min predict c) x)
    fun c hc => hammer_ge hL hf hk hB (hX c hc).1 hx (hX c hc).2.1 (hX c hc).2.2 hmin
  simp only [lpValue, lpUpdateBatches, Option.map_some, List.map_map, Function.comp_def]
  linarith

/-- **C150.** With the default transform: such a location is preferred to every location `y` whose acquisition is smaller by
more than this factor, wherever the batch is. -/
theorem C150_preferred (f : Pt d → ℝ) (L Min k B : ℝ) (D : Set (Pt d)) (hL : 0 < L) (hf : SlopeAtMost f L D) (hk : 0 ≤ k)
    (hB : 0 ≤ B) (predict : Pt d → ℝ × ℝ) (X : List (Pt d))
    (hX : ∀ c ∈ X, c ∈ D ∧ PredictsWithin predict f k c ∧ (predict c).2 ≤ B ^ 2) (x y : Pt d) (hx : x ∈ D) (hmin : f x ≤ Min)
    (gx gy : ℝ) (hgy : 0 ≤ gy) (h : gy + 1 / 10 ^ 50 < ncdf (-(k * B)) ^ X.length * (gx + 1 / 10 ^ 50)) :
    lpValue .none (-gx) (lpUpdateBatches (some X) L Min predict) x
      < lpValue .none (-gy) (lpUpdateBatches (some X) L Min predict) y := by
  have h1 := C150_better_kept .none (-gx) f L Min k B D hL hf hk hB predict X hX x hx hmin
  have hy0 : (0 : ℝ) < gy + 1 / 10 ^ 50 := by positivity
  have hpow : (0 : ℝ) < ncdf (-(k * B)) ^ X.length := pow_pos (ncdf_pos _) _
  have hgx : 0 < gx + 1 / 10 ^ 50 := pos_of_mul_pos_right (hy0.trans h) hpow.le
  have h2 := Real.log_lt_log hy0 h
  rw [Real.log_mul hpow.ne' hgx.ne', Real.log_pow] at h2
  have h3 : (X.map fun c => hammerValue (hammerPrecompute L Min predict c) y).sum ≤ 0 := by
    have := List.sum_le_sum (l := X) (f := fun c => hammerValue (hammerPrecompute L Min predict c) y) (g := fun _ => (0 : ℝ))
      fun c _ => (hammerValue_neg _ _).le
    simpa using this
  have e1 : lpValue .none (-gx) none x = -Real.log (gx + 1 / 10 ^ 50) := by simp [lpValue, lpTransformed]
  have e2 : lpValue .none (-gy) (lpUpdateBatches (some X) L Min predict) y
      = -Real.log (gy + 1 / 10 ^ 50) - (X.map fun c => hammerValue (hammerPrecompute L Min predict c) y).sum := by
    simp only [lpValue, lpUpdateBatches, Option.map_some, List.map_map, Function.comp_def, lpTransformed, neg_neg]
    ring
  rw [e1] at h1
  rw [e2]
  linarith

/-- **C150.** The other direction: a location inside of the exclusion ball of a location `c` of the batch, by at least `q`
deviations of its radius, is penalized by at least the factor `Phi(-q)`, whatever else is in the batch. -/
theorem C150_close_excluded (t : LPTransform) (acq L Min q : ℝ) (hL : 0 < L) (predict : Pt d → ℝ × ℝ) (X : List (Pt d))
    (c y : Pt d) (hc : c ∈ X) (hdev : 1 / 10 ^ 16 ≤ (predict c).2)
    (hy : √(∑ j, (y j - c j) ^ 2) ≤ ((predict c).1 - Min) / L - q * (√(predict c).2 / L)) :
    lpValue t acq none y - Real.log (ncdf (-q)) ≤ lpValue t acq (lpUpdateBatches (some X) L Min predict) y := by
  have h0 : (0 : ℝ) < (predict c).2 := lt_of_lt_of_le (by norm_num) hdev
  have hs : 0 < √(predict c).2 / L := div_pos (Real.sqrt_pos.2 h0) hL
  have h1 : hammerValue (hammerPrecompute L Min predict c) y ≤ Real.log (ncdf (-q)) := by
    refine Real.log_le_log (ncdf_pos _) (ncdf_strictMono.monotone ?_)
    simp only [hammerPrecompute, if_neg (not_lt.2 hdev)]
    rw [div_le_iff₀ hs]
    have : euclid y c = √(∑ j, (y j - c j) ^ 2) := rfl
    rw [this]
    linarith
  have h2 : (X.map fun c => hammerValue (hammerPrecompute L Min predict c) y).sum
      ≤ hammerValue (hammerPrecompute L Min predict c) y := by
    obtain ⟨l, r, rfl⟩ := List.append_of_mem hc
    have hle : ∀ Z : List (Pt d), (Z.map fun c => hammerValue (hammerPrecompute L Min predict c) y).sum ≤ 0 := by
      intro Z
      have := List.sum_le_sum (l := Z) (f := fun c => hammerValue (hammerPrecompute L Min predict c) y)
        (g := fun _ => (0 : ℝ)) fun c _ => (hammerValue_neg _ _).le
      simpa using this
    have := hle l
    have := hle r
    simp only [List.map_append, List.sum_append, List.map_cons, List.sum_cons]
    linarith
  simp only [lpValue, lpUpdateBatches, Option.map_some, List.map_map, Function.comp_def]
  linarith

/-- **C150.** With the constant of `estimate_L`, if its optimizer finds the steepest slope of the posterior mean in the box: a
location of the box whose posterior mean does not exceed the incumbent loses at most a factor 2 per location of the batch. -/
theorem C150_estimated_constant (t : LPTransform) (acq : ℝ) (m dev : Pt d → ℝ) (grad : Pt d → Pt d)
    (samples data : List (Pt d)) (minimize : (Pt d → ℝ) → Pt d → ℝ) (lo hi : Pt d) (hne : samples ≠ [])
    (hgrad : ∀ x, HasGradient m x (grad x))
    (hmin : ∀ x0 x, (∀ j, lo j ≤ x j ∧ x j ≤ hi j) →
      minimize (fun y => -(gradNorm (grad y))) x0 ≤ -(gradNorm (grad x)))
    (Min : ℝ) (X : List (Pt d)) (hX : ∀ c ∈ X, ∀ j, lo j ≤ c j ∧ c j ≤ hi j)
    (x : Pt d) (hx : ∀ j, lo j ≤ x j ∧ x j ≤ hi j) (hm : m x ≤ Min) :
    ∃ L, estimateL grad samples data minimize = .ok L ∧
      lpValue t acq (lpUpdateBatches (some X) L Min fun y => (m y, dev y)) x
        ≤ lpValue t acq none x + X.length * Real.log 2 := by
  obtain ⟨L, h1, h2, h3, -⟩ := C64_lipschitz m grad samples data minimize lo hi hne hgrad hmin
  refine ⟨L, h1, ?_⟩
  obtain ⟨B, hB, hdev⟩ : ∃ B : ℝ, 0 ≤ B ∧ ∀ c ∈ X, dev c ≤ B ^ 2 := by
    clear hX
    induction X with
    | nil => exact ⟨0, le_rfl, by simp⟩
    | cons a l ih =>
      obtain ⟨B, h0, hB⟩ := ih
      refine ⟨B + (1 + |dev a|), by positivity, fun c hc => ?_⟩
      have ha := le_abs_self (dev a)
      have ha0 := abs_nonneg (dev a)
      rcases List.mem_cons.1 hc with rfl | hc
      · nlinarith
      · have := hB c hc
        nlinarith
  have h := C150_better_kept t acq m L Min 0 B {x | ∀ j, lo j ≤ x j ∧ x j ≤ hi j} h2
    (fun x hx y hy => h3 x y hx hy) le_rfl hB (fun y => (m y, dev y)) X
    (fun c hc => ⟨hX c hc, by simp [PredictsWithin], hdev c hc⟩) x hx hm
  rw [zero_mul, neg_zero, ncdf_zero, one_div, Real.log_inv] at h
  linarith

/-- C150: the constant has to bound the slope. With exact predictions and the constant 1, locations as good as the incumbent
are penalized by more than any given amount, if the objective is steep. -/
theorem C150_slope_counterexample (t : LPTransform) (acq K : ℝ) :
    ∃ (f : Pt 1 → ℝ) (Min : ℝ) (c x : Pt 1), f x = Min ∧
      lpValue t acq none x + K < lpValue t acq (lpUpdateBatches (some [c]) 1 Min fun y => (f y, 0)) x := by
  obtain ⟨z, hz⟩ : ∃ z : ℝ, z ≤ 0 ∧ ncdf z < Real.exp (-K) :=
    ((eventually_le_atBot (0 : ℝ)).and (tendsto_ncdf_atBot.eventually_lt_const (Real.exp_pos (-K)))).exists
  -- slope `1 - z`, one unit away
  refine ⟨fun y => -((1 - z) * y 0), -(1 - z), fun _ => 0, fun _ => 1, by simp, ?_⟩
  have he : euclid (fun _ : Fin 1 => (1 : ℝ)) (fun _ => 0) = 1 := by simp [euclid]
  have h1 : hammerValue (hammerPrecompute 1 (-(1 - z)) (fun y : Pt 1 => (-((1 - z) * y 0), 0)) fun _ => 0) (fun _ => 1)
      < -K := by
    rw [← Real.log_exp (-K)]
    refine Real.log_lt_log (ncdf_pos _) (lt_of_le_of_lt (ncdf_strictMono.monotone ?_) hz.2)
    simp only [hammerPrecompute, he, mul_zero, neg_zero, zero_sub, neg_neg, div_one]
    rw [if_pos (by norm_num)]
    have hs : √(1 / 10 ^ 16 : ℝ) = 1 / 10 ^ 8 := by
      rw [show (1 / 10 ^ 16 : ℝ) = (1 / 10 ^ 8) ^ 2 by norm_num, Real.sqrt_sq (by norm_num)]
    rw [hs, div_le_iff₀ (by norm_num)]
    nlinarith [hz.1]
  simp only [lpValue, lpUpdateBatches, Option.map_some, List.map_cons, List.map_nil, List.sum_cons, List.sum_nil, add_zero]
  linarith

/-- The hypotheses are met: the objective `3 x` on the unit interval, exact predictions with deviation 1/4, the batch `{1/2}`
and the incumbent `1/4`: the location 0 loses at most a factor 2. -/
example : lpValue (d := 1) .none (-1) (lpUpdateBatches (some [fun _ => 1 / 2]) 3 (1 / 4) fun y => (3 * y 0, 1 / 4)) (fun _ => 0)
    ≤ lpValue .none (-1) none (fun _ : Fin 1 => (0 : ℝ)) - (1 : ℕ) * Real.log (ncdf (-(0 * (1 / 2)))) := by
  refine C150_better_kept .none (-1) (fun y : Pt 1 => 3 * y 0) 3 (1 / 4) 0 (1 / 2) Set.univ (by norm_num) ?_ le_rfl (by norm_num) _ [fun _ => 1 / 2]
    ?_ _ (Set.mem_univ _) (by norm_num)
  · intro x _ y _
    simp only [Finset.univ_unique, Fin.default_eq_zero, Finset.sum_singleton, Real.sqrt_sq_eq_abs]
    rw [← mul_sub, abs_mul]
    norm_num
  · intro c hc
    refine ⟨Set.mem_univ _, ?_, by norm_num⟩
    simp [PredictsWithin]

end GPyOpt.Props
