import Verif.Model.Benchmarks
import Mathlib.Analysis.Real.Pi.Bounds
import Mathlib.Analysis.SpecialFunctions.Trigonometric.Bounds
import Mathlib.Analysis.Convex.SpecificFunctions.Deriv

/-! # C73: the minimum of the egg-holder function -/

namespace GPyOpt.Props

open GPyOpt Real

/-- On every arc where the sine is not negative it lies below its tangents. -/
theorem sin_le_tangent (n : ℕ) {x y : ℝ} (hx1 : n * (2 * π) ≤ x) (hx2 : x ≤ n * (2 * π) + π) (hy1 : n * (2 * π) ≤ y)
    (hy2 : y ≤ n * (2 * π) + π) : sin x ≤ sin y + cos y * (x - y) := by
  have hc := strictConcaveOn_sin_Icc.concaveOn
  have key : ∀ a b : ℝ, 0 ≤ a → a ≤ π → 0 ≤ b → b ≤ π → sin a ≤ sin b + cos b * (a - b) := by
    intro a b ha1 ha2 hb1 hb2
    rcases lt_trichotomy a b with h | h | h
    · have := hc.le_slope_of_hasDerivAt ⟨ha1, ha2⟩ ⟨hb1, hb2⟩ h (hasDerivAt_sin b)
      rw [slope_def_field, le_div_iff₀ (by linarith)] at this
      linarith
    · subst h; linarith
    · have := hc.slope_le_of_hasDerivAt ⟨hb1, hb2⟩ ⟨ha1, ha2⟩ h (hasDerivAt_sin b)
      rw [slope_def_field, div_le_iff₀ (by linarith)] at this
      linarith
  have := key (x - n * (2 * π)) (y - n * (2 * π)) (by linarith) (by linarith) (by linarith) (by linarith)
  rw [sin_sub_nat_mul_two_pi, sin_sub_nat_mul_two_pi, cos_sub_nat_mul_two_pi] at this
  linarith

/-- Sine and cosine seen from the top of an arc. -/
theorem sin_near_top (n : ℕ) (x : ℝ) :
    sin x = cos (x - (n * (2 * π) + π / 2)) ∧ cos x = -sin (x - (n * (2 * π) + π / 2)) := by
  constructor
  · rw [show x - (n * (2 * π) + π / 2) = (x - n * (2 * π)) - π / 2 by ring, cos_sub_pi_div_two, sin_sub_nat_mul_two_pi]
  · rw [show x - (n * (2 * π) + π / 2) = (x - n * (2 * π)) - π / 2 by ring, sin_sub_pi_div_two, cos_sub_nat_mul_two_pi]
    ring

theorem cos_upper (e : ℝ) (h0 : 0 ≤ e) (h1 : e ≤ 1) : cos e ≤ 1 - 2 * (e / 2 - (e / 2) ^ 3 / 6) ^ 2 := by
  have h : cos e = 1 - 2 * sin (e / 2) ^ 2 := by
    have := cos_sq (e / 2)
    have h2 := sin_sq (e / 2)
    rw [show 2 * (e / 2) = e by ring] at this
    linarith
  have hs : e / 2 - (e / 2) ^ 3 / 6 ≤ sin (e / 2) := by
    rcases h0.eq_or_lt with h | h
    · subst h; simp
    · exact (sin_gt_sub_cube (by linarith)).le
  have hn : 0 ≤ e / 2 - (e / 2) ^ 3 / 6 := by
    have : (e / 2) ^ 3 ≤ (e / 2) := by nlinarith [sq_nonneg (e/2)]
    linarith
  rw [h]
  nlinarith

/-- The tangents used below: close to the best location, and in the other regions. -/
theorem tangent_w {w : ℝ} (h1 : 2 * π ≤ w) (h2 : w ≤ 3 * π) : ∃ c, |c - 585481329 / 10 ^ 10| ≤ 2 / 10 ^ 8 ∧
    sin w ≤ 99828459 / 10 ^ 8 + c * (w - 77954 / 10 ^ 4) := by
  have p1 := pi_gt_d20
  have p2 := pi_lt_d20
  obtain ⟨e1, e2⟩ := sin_near_top 1 (77954 / 10 ^ 4)
  set e : ℝ := 77954 / 10 ^ 4 - ((1 : ℕ) * (2 * π) + π / 2) with he
  push_cast at he
  have he1 : -585816340 / 10 ^ 10 ≤ e := by rw [he]; linarith
  have he2 : e ≤ -585816339 / 10 ^ 10 := by rw [he]; linarith
  have ht := sin_le_tangent 1 (x := w) (y := 77954 / 10 ^ 4) (by push_cast; linarith) (by push_cast; linarith)
    (by push_cast; linarith) (by push_cast; linarith)
  refine ⟨cos (77954 / 10 ^ 4), ?_, ?_⟩
  · have hb := sin_bound (x := e) (by rw [abs_le]; constructor <;> linarith)
    have h5 : |e| ^ 5 / 100 ≤ 7 / 10 ^ 9 := by
      have : |e| ≤ 5859 / 10 ^ 5 := by rw [abs_le]; constructor <;> linarith
      have := pow_le_pow_left₀ (abs_nonneg e) this 5
      norm_num at this ⊢
      linarith
    have h3l : (-585816340 / 10 ^ 10 : ℝ) ^ 3 ≤ e ^ 3 := Odd.pow_le_pow (by decide) |>.2 he1
    have h3u : e ^ 3 ≤ (-585816339 / 10 ^ 10 : ℝ) ^ 3 := Odd.pow_le_pow (by decide) |>.2 he2
    norm_num at h3l h3u
    have hb' := abs_le.1 (hb.trans h5)
    rw [e2, abs_le]
    constructor <;> norm_num <;> linarith [hb'.1, hb'.2]
  · have hc := cos_upper (-e) (by linarith) (by linarith)
    rw [cos_neg] at hc
    have hz : 29290816 / 10 ^ 9 - (29290817 / 10 ^ 9) ^ 3 / 6 ≤ -e / 2 - (-e / 2) ^ 3 / 6 := by
      have : (-e / 2) ^ 3 ≤ (29290817 / 10 ^ 9 : ℝ) ^ 3 := pow_le_pow_left₀ (by linarith) (by linarith) 3
      linarith
    have hsq := pow_le_pow_left₀ (by norm_num) hz 2
    norm_num at hsq
    rw [← e1] at hc
    norm_num at hc ht ⊢
    linarith

theorem tangent_r {r : ℝ} (h1 : 8 * π ≤ r) (h2 : r ≤ 9 * π) : ∃ c, |c - 1095174 / 10 ^ 7| ≤ 4 / 10 ^ 7 ∧
    sin r ≤ 99398488 / 10 ^ 8 + c * (r - 265938 / 10 ^ 4) := by
  have p1 := pi_gt_d20
  have p2 := pi_lt_d20
  obtain ⟨e1, e2⟩ := sin_near_top 4 (265938 / 10 ^ 4)
  set e : ℝ := 265938 / 10 ^ 4 - ((4 : ℕ) * (2 * π) + π / 2) with he
  push_cast at he
  have he1 : -1097375556 / 10 ^ 10 ≤ e := by rw [he]; linarith
  have he2 : e ≤ -1097375555 / 10 ^ 10 := by rw [he]; linarith
  have ht := sin_le_tangent 4 (x := r) (y := 265938 / 10 ^ 4) (by push_cast; linarith) (by push_cast; linarith)
    (by push_cast; linarith) (by push_cast; linarith)
  refine ⟨cos (265938 / 10 ^ 4), ?_, ?_⟩
  · have hb := sin_bound (x := e) (by rw [abs_le]; constructor <;> linarith)
    have h5 : |e| ^ 5 / 100 ≤ 16 / 10 ^ 8 := by
      have : |e| ≤ 10974 / 10 ^ 5 := by rw [abs_le]; constructor <;> linarith
      have := pow_le_pow_left₀ (abs_nonneg e) this 5
      norm_num at this ⊢
      linarith
    have h3l : (-1097375556 / 10 ^ 10 : ℝ) ^ 3 ≤ e ^ 3 := Odd.pow_le_pow (by decide) |>.2 he1
    have h3u : e ^ 3 ≤ (-1097375555 / 10 ^ 10 : ℝ) ^ 3 := Odd.pow_le_pow (by decide) |>.2 he2
    norm_num at h3l h3u
    have hb' := abs_le.1 (hb.trans h5)
    rw [e2, abs_le]
    constructor <;> norm_num <;> linarith [hb'.1, hb'.2]
  · have hc := cos_upper (-e) (by linarith) (by linarith)
    rw [cos_neg] at hc
    have hz : 548687777 / 10 ^ 10 - (548687778 / 10 ^ 10) ^ 3 / 6 ≤ -e / 2 - (-e / 2) ^ 3 / 6 := by
      have : (-e / 2) ^ 3 ≤ (548687778 / 10 ^ 10 : ℝ) ^ 3 := pow_le_pow_left₀ (by linarith) (by linarith) 3
      linarith
    have hsq := pow_le_pow_left₀ (by norm_num) hz 2
    norm_num at hsq
    rw [← e1] at hc
    norm_num at hc ht ⊢
    linarith

theorem tangent_r1 {r : ℝ} (h1 : 8 * π ≤ r) (h2 : r ≤ 9 * π) : ∃ c, |c + 155825 / 10 ^ 6| ≤ 1 / 10 ^ 5 ∧
    sin r ≤ 98779 / 10 ^ 5 + c * (r - 2686 / 10 ^ 2) := by
  have p1 := pi_gt_d20
  have p2 := pi_lt_d20
  obtain ⟨e1, e2⟩ := sin_near_top 4 (2686 / 10 ^ 2)
  set e : ℝ := 2686 / 10 ^ 2 - ((4 : ℕ) * (2 * π) + π / 2) with he
  push_cast at he
  have he1 : 15646244 / 10 ^ 8 ≤ e := by rw [he]; linarith
  have he2 : e ≤ 15646245 / 10 ^ 8 := by rw [he]; linarith
  have ht := sin_le_tangent 4 (x := r) (y := 2686 / 10 ^ 2) (by push_cast; linarith) (by push_cast; linarith)
    (by push_cast; linarith) (by push_cast; linarith)
  refine ⟨cos (2686 / 10 ^ 2), ?_, ?_⟩
  · have hb := sin_bound (x := e) (by rw [abs_le]; constructor <;> linarith)
    have h5 : |e| ^ 5 / 100 ≤ 1 / 10 ^ 6 := by
      have : |e| ≤ 15647 / 10 ^ 5 := by rw [abs_le]; constructor <;> linarith
      have := pow_le_pow_left₀ (abs_nonneg e) this 5
      norm_num at this ⊢
      linarith
    have h3l : (15646244 / 10 ^ 8 : ℝ) ^ 3 ≤ e ^ 3 := Odd.pow_le_pow (by decide) |>.2 he1
    have h3u : e ^ 3 ≤ (15646245 / 10 ^ 8 : ℝ) ^ 3 := Odd.pow_le_pow (by decide) |>.2 he2
    norm_num at h3l h3u
    have hb' := abs_le.1 (hb.trans h5)
    rw [e2, abs_le]
    constructor <;> norm_num <;> linarith [hb'.1, hb'.2]
  · have hc := cos_upper e (by linarith) (by linarith)
    have hz : 7823122 / 10 ^ 8 - (7823123 / 10 ^ 8) ^ 3 / 6 ≤ e / 2 - (e / 2) ^ 3 / 6 := by
      have : (e / 2) ^ 3 ≤ (7823123 / 10 ^ 8 : ℝ) ^ 3 := pow_le_pow_left₀ (by linarith) (by linarith) 3
      linarith
    have hsq := pow_le_pow_left₀ (by norm_num) hz 2
    norm_num at hsq
    rw [← e1] at hc
    norm_num at hc ht ⊢
    linarith

/-- The bound along `x = 512`, as a polynomial. -/
theorem egg_poly (d c0 c1 : ℝ) (h0 : |c0 - 585481329 / 10 ^ 10| ≤ 2 / 10 ^ 8) (h1 : |c1 - 1095174 / 10 ^ 7| ≤ 4 / 10 ^ 7)
    (hd1 : -(152 / 100) ≤ d) (hd2 : d ≤ 24 / 100) :
    (512 - (77954 / 10 ^ 4 + d) ^ 2) * (99398488 / 10 ^ 8 +
        c1 * ((768 - (77954 / 10 ^ 4 + d) ^ 2 - (265938 / 10 ^ 4) ^ 2) / (2 * (265938 / 10 ^ 4)))) +
      512 * (99828459 / 10 ^ 8 + c0 * d) ≤ 95964069 / 10 ^ 5 := by
  have hab : |d| ≤ 1 / 100 + 25 * d ^ 2 := by
    rw [abs_le]
    constructor <;> nlinarith [sq_nonneg (d - 1 / 50), sq_nonneg (d + 1 / 50)]
  have hE0 : (c0 - 585481329 / 10 ^ 10) * d ≤ 2 / 10 ^ 8 * (1 / 100 + 25 * d ^ 2) := by
    calc (c0 - 585481329 / 10 ^ 10) * d ≤ |(c0 - 585481329 / 10 ^ 10) * d| := le_abs_self _
      _ = |c0 - 585481329 / 10 ^ 10| * |d| := abs_mul _ _
      _ ≤ 2 / 10 ^ 8 * (1 / 100 + 25 * d ^ 2) := mul_le_mul h0 hab (abs_nonneg _) (by norm_num)
  set A : ℝ := 512 - (77954 / 10 ^ 4 + d) ^ 2 with hA
  set X : ℝ := (768 - (77954 / 10 ^ 4 + d) ^ 2 - (265938 / 10 ^ 4) ^ 2) / (2 * (265938 / 10 ^ 4)) with hX
  have hA0 : 0 ≤ A := by rw [hA]; nlinarith
  have hA1 : A ≤ 477 := by rw [hA]; nlinarith
  have hX1 : |X| ≤ 1 / 10 ^ 4 + 33 / 100 * |d| := by
    have e : X = (15404 / 10 ^ 7) / (531876 / 10 ^ 4) - (155908 / 10 ^ 4 + d) * d / (531876 / 10 ^ 4) := by
      rw [hX]; norm_num; ring
    rw [e]
    have e2 : |(155908 / 10 ^ 4 + d) * d / (531876 / 10 ^ 4)| ≤ 33 / 100 * |d| := by
      rw [abs_div, abs_mul, abs_of_pos (show (0 : ℝ) < 155908 / 10 ^ 4 + d by linarith),
        abs_of_pos (show (0 : ℝ) < 531876 / 10 ^ 4 by norm_num), div_le_iff₀ (by norm_num)]
      nlinarith [abs_nonneg d]
    calc _ ≤ |((15404 / 10 ^ 7) / (531876 / 10 ^ 4) : ℝ)| + _ := abs_sub _ _
      _ ≤ _ := add_le_add (by rw [abs_of_pos (by norm_num)]; norm_num) e2
  have hE1 : (c1 - 1095174 / 10 ^ 7) * (A * X) ≤ 4 / 10 ^ 7 * (477 * (1 / 10 ^ 4 + 33 / 100 * (1 / 100 + 25 * d ^ 2))) := by
    calc (c1 - 1095174 / 10 ^ 7) * (A * X) ≤ |(c1 - 1095174 / 10 ^ 7) * (A * X)| := le_abs_self _
      _ = |c1 - 1095174 / 10 ^ 7| * |A * X| := abs_mul _ _
      _ ≤ _ := by
        apply mul_le_mul h1 _ (abs_nonneg _) (by norm_num)
        rw [abs_mul, abs_of_nonneg hA0]
        apply mul_le_mul hA1 _ (abs_nonneg _) (by norm_num)
        linarith
  have main : A * (99398488 / 10 ^ 8 + 1095174 / 10 ^ 7 * X) + 512 * (99828459 / 10 ^ 8 + 585481329 / 10 ^ 10 * d) ≤
      9596406671 / 10 ^ 7 - 616 / 10 ^ 5 * d - 12 / 10 * d ^ 2 := by
    rw [hA, hX]
    have hd3 : 0 ≤ d ^ 2 * (24 / 100 - d) := mul_nonneg (sq_nonneg d) (by linarith)
    have hd4 : 0 ≤ d ^ 2 * ((24 / 100 - d) * (152 / 100 + d)) :=
      mul_nonneg (sq_nonneg d) (mul_nonneg (by linarith) (by linarith))
    norm_num
    nlinarith
  nlinarith [sq_nonneg (d + 3 / 1000), sq_nonneg d]

/-- The best region: `x = 512 - p`, `a = 512 - p - w ^ 2`. -/
theorem egg_main {p w r : ℝ} (hp : 0 ≤ p) (hw1 : 2 * π ≤ w) (hw2 : w ≤ 3 * π) (hs : w ^ 2 + 2 * p ≤ 6437 / 100)
    (hr1 : 8 * π ≤ r) (hr2 : r ≤ 9 * π) (hr : r ^ 2 = 768 - 3 / 2 * p - w ^ 2) :
    (512 - p - w ^ 2) * sin r + (512 - p) * sin w ≤ 95964069 / 10 ^ 5 := by
  have p1 := pi_gt_d20
  have p2 := pi_lt_d20
  obtain ⟨c0, h0, ht0⟩ := tangent_w hw1 hw2
  obtain ⟨c1, h1, ht1⟩ := tangent_r hr1 hr2
  have hw3 : w ≤ 803 / 100 := by nlinarith
  have hpoly := egg_poly (w - 77954 / 10 ^ 4) c0 c1 h0 h1 (by linarith) (by linarith)
  rw [show (77954 / 10 ^ 4 + (w - 77954 / 10 ^ 4) : ℝ) = w by ring] at hpoly
  obtain ⟨g0, g0'⟩ := abs_le.1 h0
  obtain ⟨g1, g1'⟩ := abs_le.1 h1
  have hc0 : 0 ≤ c0 := by linarith
  have hc1 : 0 ≤ c1 := by linarith
  set X : ℝ := (768 - w ^ 2 - (265938 / 10 ^ 4) ^ 2) / (2 * (265938 / 10 ^ 4)) with hX
  have hrX : r - 265938 / 10 ^ 4 ≤ X := by
    rw [hX, le_div_iff₀ (by norm_num)]
    nlinarith [sq_nonneg (r - 265938 / 10 ^ 4)]
  have hX0 : -1 ≤ X := by
    rw [hX, le_div_iff₀ (by norm_num)]
    nlinarith
  have hS : sin r ≤ 99398488 / 10 ^ 8 + c1 * X := by
    have := mul_le_mul_of_nonneg_left hrX hc1
    linarith
  have hA : 0 ≤ 512 - p - w ^ 2 := by nlinarith
  have e1 : (512 - p - w ^ 2) * sin r ≤ (512 - w ^ 2) * (99398488 / 10 ^ 8 + c1 * X) := by
    have hpos : 0 ≤ 99398488 / 10 ^ 8 + c1 * X := by
      have := mul_le_mul_of_nonneg_left hX0 hc1
      linarith
    exact (mul_le_mul_of_nonneg_left hS hA).trans (mul_le_mul_of_nonneg_right (by linarith) hpos)
  have e2 : (512 - p) * sin w ≤ 512 * (99828459 / 10 ^ 8 + c0 * (w - 77954 / 10 ^ 4)) := by
    have hx : 0 ≤ 512 - p := by nlinarith
    have hpos : 0 ≤ 99828459 / 10 ^ 8 + c0 * (w - 77954 / 10 ^ 4) := by
      have := mul_le_mul_of_nonneg_left (show (-2 : ℝ) ≤ w - 77954 / 10 ^ 4 by linarith) hc0
      linarith
    exact (mul_le_mul_of_nonneg_left ht0 hx).trans (mul_le_mul_of_nonneg_right (by linarith) hpos)
  linarith

/-- A product above a number. -/
theorem mul_big {a s c : ℝ} (hc : 0 ≤ c) (h : c < a * s) (h1 : -1 ≤ s) (h2 : s ≤ 1) :
    (c < a ∧ 0 < s) ∨ (a < -c ∧ s < 0) := by
  rcases lt_trichotomy s 0 with hs | hs | hs
  · right
    refine ⟨?_, hs⟩
    by_contra hn
    rw [not_lt] at hn
    nlinarith
  · subst hs; linarith
  · left
    refine ⟨?_, hs⟩
    by_contra hn
    rw [not_lt] at hn
    nlinarith

theorem sin_arc_pos (n : ℕ) {y : ℝ} (g1 : n * (2 * π) < y) (g2 : y < n * (2 * π) + π) : 0 < sin y := by
  rw [← sin_sub_nat_mul_two_pi y n]
  exact sin_pos_of_pos_of_lt_pi (by linarith) (by linarith)

theorem sin_arc_nonpos (n : ℕ) {y : ℝ} (g1 : y ≤ n * (2 * π)) (g2 : n * (2 * π) - π ≤ y) : sin y ≤ 0 := by
  rw [← sin_sub_nat_mul_two_pi y n]
  exact sin_nonpos_of_nonpos_of_neg_pi_le (by linarith) (by linarith)

theorem lt_of_sq {a b : ℝ} (hb : 0 ≤ b) (h : a ^ 2 < b ^ 2) : a < b := lt_of_pow_lt_pow_left₀ 2 hb h

/-- The region with `a < 0`. -/
theorem egg_neg {a x r : ℝ} (hr0 : 0 ≤ r) (hr : r ^ 2 = |x / 2 + a|) (ha1 : -465 ≤ a) (ha : a < -447)
    (hx1 : -512 ≤ x) (hx2 : x ≤ 512) (hx : x < -494 ∨ 494 < x) : 0 < sin r := by
  have p1 := pi_gt_d20
  have p2 := pi_lt_d20
  rw [abs_of_neg (by linarith)] at hr
  rcases hx with hx | hx
  · apply sin_arc_pos 4 <;> push_cast
    · have : (26 : ℝ) < r := lt_of_sq hr0 (by rw [hr]; linarith)
      linarith
    · have : r < 27 := lt_of_sq (by norm_num) (by rw [hr]; linarith)
      linarith
  · apply sin_arc_pos 2 <;> push_cast
    · have : (13 : ℝ) < r := lt_of_sq hr0 (by rw [hr]; linarith)
      linarith
    · have : r < 15 := lt_of_sq (by norm_num) (by rw [hr]; linarith)
      linarith

/-- The region with `x < 0 < a`. -/
theorem egg_opposite {v x w : ℝ} (hw0 : 0 ≤ w) (hw : w ^ 2 = v) (hv1 : 959 < v) (hv2 : v ≤ 1071) (hx1 : -512 ≤ x)
    (hx : x < 0) : x * sin w ≤ 400 := by
  have p1 := pi_gt_d20
  have p2 := pi_lt_d20
  have hw1 : 3096 / 100 < w := lt_of_sq hw0 (by rw [hw]; linarith)
  have hw2 : w < 3273 / 100 := lt_of_sq (by norm_num) (by rw [hw]; linarith)
  have key : -(1 / 2) ≤ sin w := by
    rcases le_or_gt (10 * π) w with h | h
    · have := sin_nonneg_of_nonneg_of_le_pi (x := w - (5 : ℕ) * (2 * π)) (by push_cast; linarith)
        (by push_cast; linarith)
      rw [sin_sub_nat_mul_two_pi] at this
      linarith
    · have h1 : sin (10 * π - w) ≤ 10 * π - w := sin_le (by linarith)
      have h2 : sin w = -sin (10 * π - w) := by
        rw [← sin_sub_nat_mul_two_pi w 5, ← sin_neg]
        congr 1
        push_cast
        ring
      linarith
  nlinarith

/-- The bound away from the best region. -/
theorem egg_far {a x r T : ℝ} (hr1 : 8 * π ≤ r) (hr2 : r ≤ 9 * π) (hr : r ^ 2 = x / 2 + a) (hT : T ≤ 1) (hx : 0 ≤ x)
    (hx4 : x ≤ 2 / 3 * (r ^ 2 + 601 / 100)) : a * sin r + x * T ≤ 9595 / 10 := by
  have p1 := pi_gt_d20
  have p2 := pi_lt_d20
  obtain ⟨c, hc, hS⟩ := tangent_r1 hr1 hr2
  obtain ⟨hc1, hc2⟩ := abs_le.1 hc
  have hS1 := sin_le_one r
  set t : ℝ := r - 2686 / 10 ^ 2 with ht
  have ht1 : -(173 / 100) ≤ t := by rw [ht]; linarith
  have ht2 : t ≤ 142 / 100 := by rw [ht]; linarith
  have hu : r ^ 2 = 7214596 / 10 ^ 4 + 5372 / 10 ^ 2 * t + t ^ 2 := by rw [ht]; ring
  have hu0 : 0 ≤ 2 / 3 * r ^ 2 - 601 / 300 := by
    have : (25 : ℝ) ^ 2 ≤ r ^ 2 := pow_le_pow_left₀ (by norm_num) (by linarith) 2
    linarith
  have g1 : a * sin r + x * T ≤ r ^ 2 * sin r + x * (1 - sin r / 2) := by
    have := mul_le_mul_of_nonneg_left hT hx
    rw [hr]
    linarith
  have g2 : x * (1 - sin r / 2) ≤ 2 / 3 * (r ^ 2 + 601 / 100) * (1 - sin r / 2) :=
    mul_le_mul_of_nonneg_right hx4 (by linarith)
  have g3 : r ^ 2 * sin r + 2 / 3 * (r ^ 2 + 601 / 100) * (1 - sin r / 2) =
      2 / 3 * r ^ 2 + 2 / 3 * (601 / 100) + sin r * (2 / 3 * r ^ 2 - 601 / 300) := by ring
  have g5 : c * t ≤ -(155825 / 10 ^ 6) * t + 2 / 10 ^ 5 := by
    have h1 : (c + 155825 / 10 ^ 6) * t ≤ 1 / 10 ^ 5 * 2 := by
      calc _ ≤ |(c + 155825 / 10 ^ 6) * t| := le_abs_self _
        _ = |c + 155825 / 10 ^ 6| * |t| := abs_mul _ _
        _ ≤ _ := mul_le_mul hc (by rw [abs_le]; constructor <;> linarith) (abs_nonneg _) (by norm_num)
    linarith
  have g6 : sin r * (2 / 3 * r ^ 2 - 601 / 300) ≤
      (98779 / 10 ^ 5 + (-(155825 / 10 ^ 6) * t + 2 / 10 ^ 5)) * (2 / 3 * r ^ 2 - 601 / 300) :=
    mul_le_mul_of_nonneg_right (by linarith) hu0
  have g7 : 2 / 3 * r ^ 2 + 2 / 3 * (601 / 100) +
      (98779 / 10 ^ 5 + (-(155825 / 10 ^ 6) * t + 2 / 10 ^ 5)) * (2 / 3 * r ^ 2 - 601 / 300) ≤ 9595 / 10 := by
    rw [hu]
    have h3 : 0 ≤ t ^ 2 * (t + 173 / 100) := mul_nonneg (sq_nonneg t) (by linarith)
    nlinarith [sq_nonneg (t + 44 / 100), sq_nonneg t]
  linarith

/-- The region with `a` and `x` positive. -/
theorem egg_pos {a x r w : ℝ} (hr0 : 0 ≤ r) (hw0 : 0 ≤ w) (hr : r ^ 2 = |x / 2 + a|) (hw : w ^ 2 = |x - a|)
    (ha2 : a ≤ 559) (hx2 : x ≤ 512) (ha : 447 < a) (hx : 400 < x) (hSpos : 0 < sin r) (hT : 78 / 100 < sin w)
    (hs : 9596406 / 10 ^ 4 < x + a) : a * sin r + x * sin w ≤ 95964069 / 10 ^ 5 := by
  have p1 := pi_gt_d20
  have p2 := pi_lt_d20
  have hv : w ^ 2 ≤ 159 := by rw [hw, abs_le]; constructor <;> linarith
  have hw3 : w < 1262 / 100 := lt_of_sq (by norm_num) (by linarith)
  rw [abs_of_pos (by linarith)] at hr
  have hr1 : 8 * π ≤ r := by
    have : (26 : ℝ) < r := lt_of_sq hr0 (by rw [hr]; linarith)
    linarith
  have hr3 : r < 29 := lt_of_sq (by norm_num) (by rw [hr]; linarith)
  have hr2 : r ≤ 9 * π := by
    by_contra h
    rw [not_le] at h
    have := sin_arc_nonpos 5 (y := r) (by push_cast; linarith) (by push_cast; linarith)
    linarith
  have far : x ≤ 2 / 3 * (r ^ 2 + 601 / 100) → a * sin r + x * sin w ≤ 95964069 / 10 ^ 5 := by
    intro h
    have := egg_far hr1 hr2 hr (sin_le_one w) (by linarith) h
    linarith
  rcases lt_or_ge w π with h1 | h1
  · have hw4 : w < 245 / 100 := by
      by_contra h
      rw [not_lt] at h
      have h2 : sin (π - w) ≤ π - w := sin_le (by linarith)
      rw [sin_pi_sub] at h2
      linarith
    have hv2 : w ^ 2 ≤ (245 / 100) ^ 2 := pow_le_pow_left₀ hw0 hw4.le 2
    rw [hw, abs_le] at hv2
    exact far (by rw [hr]; linarith [hv2.1, hv2.2])
  · have h2 : 2 * π < w := by
      by_contra h
      rw [not_lt] at h
      have := sin_arc_nonpos 1 (y := w) (by push_cast; linarith) (by push_cast; linarith)
      linarith
    have h3 : w < 3 * π := by
      by_contra h
      rw [not_lt] at h
      rcases le_or_gt w (4 * π) with h4 | h4
      · have := sin_arc_nonpos 2 (y := w) (by push_cast; linarith) (by push_cast; linarith)
        linarith
      · have h5 : sin (w - (2 : ℕ) * (2 * π)) ≤ w - (2 : ℕ) * (2 * π) := sin_le (by push_cast; linarith)
        rw [sin_sub_nat_mul_two_pi] at h5
        push_cast at h5
        linarith
    rcases le_or_gt x a with h4 | h4
    · exact far (by rw [hr]; linarith)
    · rw [abs_of_pos (by linarith)] at hw
      have hm := egg_main (p := 512 - x) (w := w) (r := r) (by linarith) h2.le h3.le (by rw [hw]; linarith) hr1 hr2
        (by rw [hr, hw]; ring)
      rw [hw, show 512 - (512 - x) - (x - a) = a by ring, show 512 - (512 - x) = x by ring] at hm
      exact hm

/-- The egg-holder function in the coordinates `a = x2 + 47` and `x = x1`. -/
theorem egg_bound {a x : ℝ} (ha1 : -465 ≤ a) (ha2 : a ≤ 559) (hx1 : -512 ≤ x) (hx2 : x ≤ 512) :
    a * sin √|x / 2 + a| + x * sin √|x - a| ≤ 95964069 / 10 ^ 5 := by
  by_contra hcon
  rw [not_le] at hcon
  have hr0 := sqrt_nonneg |x / 2 + a|
  have hw0 := sqrt_nonneg |x - a|
  have hr : √|x / 2 + a| ^ 2 = |x / 2 + a| := sq_sqrt (abs_nonneg _)
  have hw : √|x - a| ^ 2 = |x - a| := sq_sqrt (abs_nonneg _)
  have hS1 := sin_le_one √|x / 2 + a|
  have hS2 := neg_one_le_sin √|x / 2 + a|
  have hT1 := sin_le_one √|x - a|
  have hT2 := neg_one_le_sin √|x - a|
  have hxT : x * sin √|x - a| ≤ 512 := by
    by_contra h
    rcases mul_big (by norm_num) (not_le.1 h) hT2 hT1 with h | h <;> linarith [h.1]
  have haS : a * sin √|x / 2 + a| ≤ 559 := by
    by_contra h
    rcases mul_big (by norm_num) (not_le.1 h) hS2 hS1 with h | h <;> linarith [h.1]
  rcases mul_big (a := a) (c := 447) (by norm_num) (by linarith) hS2 hS1 with ⟨ha, hS⟩ | ⟨ha, hS⟩
  · rcases mul_big (a := x) (c := 400) (by norm_num) (by linarith) hT2 hT1 with ⟨hx, hT⟩ | ⟨hx, hT⟩
    · have hT3 : 78 / 100 < sin √|x - a| := by
        by_contra h
        rw [not_lt] at h
        have := mul_le_mul_of_nonneg_left h (show 0 ≤ x by linarith)
        linarith
      have hs : 9596406 / 10 ^ 4 < x + a := by
        have := mul_le_mul_of_nonneg_left hT1 (show 0 ≤ x by linarith)
        have := mul_le_mul_of_nonneg_left hS1 (show 0 ≤ a by linarith)
        linarith
      have := egg_pos hr0 hw0 hr hw ha2 hx2 ha hx hS hT3 hs
      linarith
    · have hv : 959 < a - x := by
        have := mul_le_mul_of_nonneg_left hS1 (show 0 ≤ a by linarith)
        have := mul_le_mul_of_nonpos_left hT2 (show x ≤ 0 by linarith)
        linarith
      have := egg_opposite hw0 hw (by rw [abs_of_neg (by linarith)]; linarith) (by rw [abs_of_neg (by linarith)]; linarith)
        hx1 (by linarith)
      linarith
  · have haS3 : a * sin √|x / 2 + a| ≤ 465 := by
      by_contra h
      rcases mul_big (by norm_num) (not_le.1 h) hS2 hS1 with h | h <;> linarith [h.1]
    have hx : x < -494 ∨ 494 < x := by
      rcases mul_big (a := x) (c := 494) (by norm_num) (by linarith) hT2 hT1 with ⟨hx, -⟩ | ⟨hx, -⟩
      · exact Or.inr hx
      · exact Or.inl hx
    have := egg_neg hr0 hr ha1 ha hx1 hx2 hx
    linarith

theorem cos_lower {f : ℝ} (h0 : 0 ≤ f) {c : ℝ} (h1 : f ≤ c) (hc : c ≤ 1) :
    1 - 2 * (c - (c ^ 3 / 6 - c ^ 5 / 100)) ^ 2 ≤ cos (2 * f) := by
  have h : cos (2 * f) = 1 - 2 * sin f ^ 2 := by
    have := cos_sq f
    have h2 := sin_sq f
    linarith
  have hp : c ≤ π / 2 := by linarith [pi_gt_three]
  have hs : sin f ≤ sin c := sin_le_sin_of_le_of_le_pi_div_two (by linarith [pi_pos]) hp h1
  have hb := sin_bound (x := c) (by rw [abs_of_nonneg (by linarith)]; exact hc)
  rw [abs_of_nonneg (show 0 ≤ c by linarith)] at hb
  have hb2 := (abs_le.1 hb).2
  have h0s : 0 ≤ sin f := sin_nonneg_of_nonneg_of_le_pi h0 (by linarith [pi_pos])
  have := pow_le_pow_left₀ h0s (show sin f ≤ c - (c ^ 3 / 6 - c ^ 5 / 100) by linarith) 2
  rw [h]
  linarith

/-- **C73 (partial).** Egg-holder: on the default box nowhere below -959.64069, and at the stated location within 1e-4 of the
stated minimum -959.6407. -/
theorem C73_eggholder_partial :
    (∀ x1 x2, -512 ≤ x1 → x1 ≤ 512 → -512 ≤ x2 → x2 ≤ 512 → -(95964069 / 10 ^ 5) ≤ eggholderF x1 x2) ∧
    |eggholderF 512 (4042319 / 10 ^ 4) - -(9596407 / 10 ^ 4)| < 1 / 10 ^ 4 := by
  have main : ∀ x1 x2, -512 ≤ x1 → x1 ≤ 512 → -512 ≤ x2 → x2 ≤ 512 → -(95964069 / 10 ^ 5) ≤ eggholderF x1 x2 := by
    intro x1 x2 h1 h2 h3 h4
    have := egg_bound (a := x2 + 47) (x := x1) (by linarith) (by linarith) h1 h2
    unfold eggholderF
    rw [show x1 / 2 + (x2 + 47) = x2 + x1 / 2 + 47 by ring] at this
    linarith
  refine ⟨main, ?_⟩
  have hlow := main 512 (4042319 / 10 ^ 4) (by norm_num) (by norm_num) (by norm_num) (by norm_num)
  have p1 := pi_gt_d20
  have p2 := pi_lt_d20
  have hw : 77953896 / 10 ^ 7 ≤ √(607681 / 10 ^ 4 : ℝ) := by
    rw [le_sqrt' (by norm_num)]; norm_num
  have hw' : √(607681 / 10 ^ 4 : ℝ) ≤ 77953897 / 10 ^ 7 := by
    rw [sqrt_le_left (by norm_num)]; norm_num
  have hr : 265938319 / 10 ^ 7 ≤ √(7072319 / 10 ^ 4 : ℝ) := by
    rw [le_sqrt' (by norm_num)]; norm_num
  have hr' : √(7072319 / 10 ^ 4 : ℝ) ≤ 265938320 / 10 ^ 7 := by
    rw [sqrt_le_left (by norm_num)]; norm_num
  have s1 : 99828395 / 10 ^ 8 ≤ sin √(607681 / 10 ^ 4 : ℝ) := by
    rw [(sin_near_top 1 _).1, ← cos_neg]
    have := cos_lower (f := -(√(607681 / 10 ^ 4 : ℝ) - ((1 : ℕ) * (2 * π) + π / 2)) / 2) (c := 29296018 / 10 ^ 9)
      (by push_cast; linarith) (by push_cast; linarith) (by norm_num)
    rw [mul_div_cancel₀ _ (by norm_num : (2 : ℝ) ≠ 0)] at this
    norm_num at this ⊢
    linarith
  have s2 : 99398835 / 10 ^ 8 ≤ sin √(7072319 / 10 ^ 4 : ℝ) := by
    rw [(sin_near_top 4 _).1, ← cos_neg]
    have := cos_lower (f := -(√(7072319 / 10 ^ 4 : ℝ) - ((4 : ℕ) * (2 * π) + π / 2)) / 2) (c := 5485283 / 10 ^ 8)
      (by push_cast; linarith) (by push_cast; linarith) (by norm_num)
    rw [mul_div_cancel₀ _ (by norm_num : (2 : ℝ) ≠ 0)] at this
    norm_num at this ⊢
    linarith
  have e : eggholderF 512 (4042319 / 10 ^ 4) =
      -(4512319 / 10 ^ 4) * sin √(7072319 / 10 ^ 4 : ℝ) + -512 * sin √(607681 / 10 ^ 4 : ℝ) := by
    unfold eggholderF
    norm_num [abs_of_pos]
  rw [abs_lt]
  constructor
  · linarith
  · rw [e]
    linarith

end GPyOpt.Props
