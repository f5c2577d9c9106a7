import Verif.Model.Benchmarks
import Mathlib.Analysis.Real.Pi.Bounds
import Mathlib.Analysis.SpecialFunctions.Trigonometric.Bounds

/-!
# C73: the example objectives
-/

namespace GPyOpt.Props
open GPyOpt

/-- `p` is the only minimum of `f`, with value `v`. -/
def IsUniqueMin (f : ℝ → ℝ → ℝ) (p : ℝ × ℝ) (v : ℝ) : Prop :=
  f p.1 p.2 = v ∧ ∀ x1 x2, (x1, x2) ≠ p → v < f x1 x2

/-! ## Stated optimum right -/

/-- **C73 (partial).** Rosenbrock: stated minimum 0 at (1, 1). -/
theorem C73_rosenbrock_partial : IsUniqueMin rosenbrockF (1, 1) 0 := by
  refine ⟨by norm_num [rosenbrockF], fun x1 x2 h => ?_⟩
  unfold rosenbrockF
  by_cases h1 : x1 = 1
  · have h2 : x2 - x1 ^ 2 ≠ 0 := by
      intro h0
      refine h (Prod.ext h1 ?_)
      rw [h1] at h0
      change x2 = 1
      linarith
    have := pow_pos (abs_pos.2 h2) 2
    rw [sq_abs] at this
    have := sq_nonneg (x1 - 1)
    linarith
  · have := pow_pos (abs_pos.2 (sub_ne_zero.2 h1)) 2
    rw [sq_abs] at this
    have := sq_nonneg (x2 - x1 ^ 2)
    linarith

/-- **C73 (partial).** Sum of powers: stated minimum 0 at (0, 0). -/
theorem C73_powers_partial : IsUniqueMin powersF (0, 0) 0 := by
  refine ⟨by norm_num [powersF], fun x1 x2 h => ?_⟩
  unfold powersF
  by_cases h1 : x1 = 0
  · have h2 : x2 ≠ 0 := fun h2 => h (Prod.ext h1 h2)
    have := pow_pos (abs_pos.2 h2) 3
    have := sq_nonneg |x1|
    linarith
  · have := pow_pos (abs_pos.2 h1) 2
    have := pow_nonneg (abs_nonneg x2) 3
    linarith

/-- **C73 (partial).** Goldstein-Price: stated minimum 3 at (0, -1). -/
theorem C73_goldstein_partial : IsUniqueMin goldsteinF (0, -1) 3 := by
  refine ⟨by norm_num [goldsteinF], fun x1 x2 h => ?_⟩
  set s := x1 + x2 with hs
  set w := 2 * x1 - 3 * x2 with hw
  have e : goldsteinF x1 x2 = (1 + (s + 1) ^ 2 * (3 * s ^ 2 - 14 * s + 19))
      * (3 + (w - 3) ^ 2 * (3 * w ^ 2 + 2 * w + 3)) := by
    rw [hs, hw]
    unfold goldsteinF
    ring
  rw [e]
  have p1 : 0 < 3 * s ^ 2 - 14 * s + 19 := by nlinarith [sq_nonneg (3 * s - 7)]
  have p2 : 0 < 3 * w ^ 2 + 2 * w + 3 := by nlinarith [sq_nonneg (3 * w + 1)]
  have q1 : 0 ≤ (s + 1) ^ 2 * (3 * s ^ 2 - 14 * s + 19) := mul_nonneg (sq_nonneg _) p1.le
  have q2 : 0 ≤ (w - 3) ^ 2 * (3 * w ^ 2 + 2 * w + 3) := mul_nonneg (sq_nonneg _) p2.le
  by_cases hs1 : s = -1
  · have hw3 : w - 3 ≠ 0 := by
      intro h0
      refine h (Prod.ext ?_ ?_)
      · change x1 = 0
        linarith
      · change x2 = -1
        linarith
    have : 0 < (w - 3) ^ 2 * (3 * w ^ 2 + 2 * w + 3) := by positivity
    nlinarith
  · have hs0 : s + 1 ≠ 0 := fun h0 => hs1 (by linarith)
    have : 0 < (s + 1) ^ 2 * (3 * s ^ 2 - 14 * s + 19) := by positivity
    nlinarith

/-- **C73 (partial).** Branin: the least value is `10/(8 pi)`, which the stated 0.397887 approximates, and it is
attained at the stated locations (`9.42478` being an approximation of `3 pi`). -/
theorem C73_branin_partial :
    (∀ x1 x2, 10 / (8 * Real.pi) ≤ braninF x1 x2) ∧
    braninF (-Real.pi) (12275 / 1000) = 10 / (8 * Real.pi) ∧
    braninF Real.pi (2275 / 1000) = 10 / (8 * Real.pi) ∧
    braninF (3 * Real.pi) (2475 / 1000) = 10 / (8 * Real.pi) ∧
    |10 / (8 * Real.pi) - 397887 / 10 ^ 6| < 1 / 10 ^ 6 ∧ |3 * Real.pi - 942478 / 10 ^ 5| < 1 / 10 ^ 5 := by
  have hpi := Real.pi_pos
  have h1 := Real.pi_gt_d20
  have h2 := Real.pi_lt_d20
  have hc3 : Real.cos (3 * Real.pi) = -1 := by
    rw [show 3 * Real.pi = Real.pi + 2 * Real.pi by ring, Real.cos_add_two_pi, Real.cos_pi]
  refine ⟨fun x1 x2 => ?_, ?_, ?_, ?_, ?_, ?_⟩
  · unfold braninF
    have ht : 0 ≤ 1 - 1 / (8 * Real.pi) := by
      rw [sub_nonneg, div_le_one (by positivity)]
      linarith
    have hc := Real.neg_one_le_cos x1
    have hq := sq_nonneg (x2 - 51 / 10 / (4 * Real.pi ^ 2) * x1 ^ 2 + 5 / Real.pi * x1 - 6)
    have hm := mul_nonneg ht (by linarith : 0 ≤ Real.cos x1 + 1)
    have e : 10 / (8 * Real.pi) = 10 * (1 / (8 * Real.pi)) := by ring
    rw [e]
    nlinarith
  · unfold braninF
    rw [Real.cos_neg, Real.cos_pi]
    field_simp
    ring
  · unfold braninF
    rw [Real.cos_pi]
    field_simp
    ring
  · unfold braninF
    rw [hc3]
    field_simp
    ring
  · rw [abs_lt]
    constructor
    · have : 397886 / 10 ^ 6 < 10 / (8 * Real.pi) := by
        rw [lt_div_iff₀ (by positivity)]
        linarith
      linarith
    · rw [sub_lt_iff_lt_add, div_lt_iff₀ (by positivity)]; linarith
  · rw [abs_lt]
    constructor <;> linarith

/-- **C73 (partial).** McCormick: on the default box the least value is `-sqrt 3/2 - pi/3`, which the stated -1.9133
approximates; the only location is `((1 - 2 pi/3)/2, (-1 - 2 pi/3)/2)`, which the stated one approximates. -/
theorem C73_mccormick_partial :
    mccormickF ((1 - 2 * Real.pi / 3) / 2) ((-1 - 2 * Real.pi / 3) / 2) = -(√3 / 2) - Real.pi / 3 ∧
    (∀ x1 x2, -(3 / 2) ≤ x1 → -3 ≤ x2 → -(√3 / 2) - Real.pi / 3 ≤ mccormickF x1 x2) ∧
    |(-(√3 / 2) - Real.pi / 3) - -(19133 / 10 ^ 4)| < 1 / 10 ^ 4 ∧
    |(1 - 2 * Real.pi / 3) / 2 - -(54719 / 10 ^ 5)| < 2 / 10 ^ 5 ∧
    |(-1 - 2 * Real.pi / 3) / 2 - -(154719 / 10 ^ 5)| < 2 / 10 ^ 5 := by
  have h1 := Real.pi_gt_d20
  have h2 := Real.pi_lt_d20
  have hs3 : √3 ^ 2 = 3 := Real.sq_sqrt (by norm_num)
  have hs30 : 0 ≤ √3 := Real.sqrt_nonneg 3
  have hsl : 173205 / 10 ^ 5 < √3 := by
    rw [Real.lt_sqrt (by norm_num)]
    norm_num
  have hsu : √3 < 17321 / 10 ^ 4 := by
    rw [Real.sqrt_lt' (by norm_num)]
    norm_num
  have hc : Real.cos (2 * Real.pi / 3) = -(1 / 2) := by
    rw [show 2 * Real.pi / 3 = Real.pi - Real.pi / 3 by ring, Real.cos_pi_sub, Real.cos_pi_div_three]
  have hsn : Real.sin (2 * Real.pi / 3) = √3 / 2 := by
    rw [show 2 * Real.pi / 3 = Real.pi - Real.pi / 3 by ring, Real.sin_pi_sub, Real.sin_pi_div_three]
  have key : ∀ s : ℝ, -(9 / 2) ≤ s → -(√3 / 2) - Real.pi / 3 ≤ Real.sin s + s / 2 := by
    intro s hs
    set t := s + 2 * Real.pi / 3 with ht
    have e : Real.sin s = -(1 / 2) * Real.sin t - √3 / 2 * Real.cos t := by
      rw [show s = t - 2 * Real.pi / 3 by rw [ht]; ring, Real.sin_sub, hc, hsn]
      ring
    have e2 : s / 2 = t / 2 - Real.pi / 3 := by rw [ht]; ring
    rw [e, e2]
    suffices h : 0 ≤ √3 / 2 * (1 - Real.cos t) + 1 / 2 * (t - Real.sin t) by nlinarith
    have hc1 : 0 ≤ 1 - Real.cos t := by linarith [Real.cos_le_one t]
    rcases le_or_gt 0 t with h0 | h0
    · have := Real.sin_le h0
      have := mul_nonneg (by positivity : 0 ≤ √3 / 2) hc1
      linarith
    · set y := -t with hy
      have hy0 : 0 < y := by rw [hy]; linarith
      have hy1 : y < 241 / 100 := by rw [hy, ht]; linarith
      rw [show t = -y by rw [hy]; ring, Real.cos_neg, Real.sin_neg]
      have hcq := Real.cos_le_one_sub_mul_cos_sq (x := y) (by rw [abs_of_pos hy0]; linarith)
      have hpp : Real.pi ^ 2 < 98697 / 10 ^ 4 := by nlinarith
      have hpp0 : 0 < Real.pi ^ 2 := by positivity
      have hq : 2 / Real.pi ^ 2 * y ^ 2 ≥ 2026 / 10 ^ 4 * y ^ 2 := by
        refine mul_le_mul_of_nonneg_right ?_ (sq_nonneg _)
        rw [le_div_iff₀ hpp0]
        linarith
      have hA : 17545 / 10 ^ 5 * y ^ 2 ≤ √3 / 2 * (1 - Real.cos y) := by
        have : 2026 / 10 ^ 4 * y ^ 2 ≤ 1 - Real.cos y := by linarith
        have h3 : 866 / 1000 * (2026 / 10 ^ 4 * y ^ 2) ≤ √3 / 2 * (1 - Real.cos y) :=
          mul_le_mul (by linarith) this (by positivity) (by positivity)
        nlinarith [sq_nonneg y]
      rcases le_or_gt y (21 / 10) with hle | hgt
      · have hsin : y - y ^ 3 / 6 ≤ Real.sin y := by
          exact (Real.sin_gt_sub_cube hy0).le
        nlinarith [mul_nonneg (sq_nonneg y) (by linarith : 0 ≤ 21 / 10 - y)]
      · have hsin : 2 / Real.pi * (Real.pi - y) ≤ Real.sin y := by
          rw [← Real.sin_pi_sub]
          exact Real.mul_le_sin (by linarith) (by linarith)
        have h5 : 2 / Real.pi * (Real.pi - y) = 2 - 2 * y / Real.pi := by
          field_simp
        have h6 : 2 * y / Real.pi ≤ 6367 / 10 ^ 4 * y := by
          rw [div_le_iff₀ Real.pi_pos]
          nlinarith
        nlinarith [sq_nonneg (y - 233 / 100)]
  refine ⟨?_, fun x1 x2 hx1 hx2 => ?_, ?_, ?_, ?_⟩
  · unfold mccormickF
    rw [show (1 - 2 * Real.pi / 3) / 2 + (-1 - 2 * Real.pi / 3) / 2 = -(2 * Real.pi / 3) by ring, Real.sin_neg, hsn]
    ring
  · have := key (x1 + x2) (by linarith)
    have e : mccormickF x1 x2 = Real.sin (x1 + x2) + (x1 + x2) / 2 + (x1 - x2 - 1) ^ 2 := by
      unfold mccormickF
      ring
    rw [e]
    have := sq_nonneg (x1 - x2 - 1)
    linarith
  · rw [abs_lt]
    constructor <;> linarith
  · rw [abs_lt]
    constructor <;> linarith
  · rw [abs_lt]
    constructor <;> linarith

/-- **C73 (partial).** Alpine1, in any dimension: stated minimum 0 at the origin. -/
theorem C73_alpine1_partial {d : Nat} : alpine1F (fun _ : Fin d => 0) = 0 ∧ ∀ x : Fin d → ℝ, 0 ≤ alpine1F x :=
  ⟨by simp [alpine1F], fun _ => Finset.sum_nonneg fun _ _ => abs_nonneg _⟩

/-- **C73 (partial).** Ackley, in any dimension: stated minimum 0 at the origin, and nowhere else. -/
theorem C73_ackley_partial {d : Nat} (hd : 0 < d) : ackleyF (fun _ : Fin d => 0) = 0 ∧
    ∀ x : Fin d → ℝ, x ≠ 0 → 0 < ackleyF x := by
  have hd' : (0 : ℝ) < d := by exact_mod_cast hd
  constructor
  · simp [ackleyF, hd'.ne']
  · intro x hx
    have h1 : Real.exp ((∑ i, Real.cos (2 * Real.pi * x i)) / d) ≤ Real.exp 1 := by
      rw [Real.exp_le_exp, div_le_one hd']
      calc ∑ i, Real.cos (2 * Real.pi * x i) ≤ ∑ _i : Fin d, (1 : ℝ) :=
            Finset.sum_le_sum fun i _ => Real.cos_le_one _
        _ = d := by simp
    have hpos : 0 < ∑ i, x i ^ 2 := by
      obtain ⟨i, hi⟩ := Function.ne_iff.1 hx
      refine Finset.sum_pos' (fun i _ => sq_nonneg _) ⟨i, Finset.mem_univ _, ?_⟩
      have := pow_pos (abs_pos.2 hi) 2
      rwa [sq_abs] at this
    have h2 : Real.exp (-(2 / 10) * √((∑ i, x i ^ 2) / d)) < 1 := by
      rw [Real.exp_lt_one_iff]
      have : 0 < √((∑ i, x i ^ 2) / d) := Real.sqrt_pos.2 (div_pos hpos hd')
      linarith
    unfold ackleyF
    linarith

/-- gSobol with positive coefficients (the code states no optimum): the least value is at the centre. -/
theorem C73_gSobol_partial {d : Nat} (a : Fin d → ℝ) (ha : ∀ i, 0 < a i) (x : Fin d → ℝ) :
    gSobolF a (fun _ => 1 / 2) ≤ gSobolF a x := by
  unfold gSobolF
  refine Finset.prod_le_prod (fun i _ => ?_) fun i _ => ?_
  · have := ha i
    positivity
  · have := ha i
    refine div_le_div_of_nonneg_right ?_ (by linarith)
    have h : |4 * (1 / 2 : ℝ) - 2| = 0 := by norm_num
    rw [h]
    have := abs_nonneg (4 * x i - 2)
    linarith

/-- **C73 (partial).** Six-hump camel: nowhere below -1.03163, and at both stated locations within 5e-5 of the stated
-1.0316. -/
theorem C73_camel_partial :
    (∀ x1 x2, -(103163 / 10 ^ 5) ≤ camelF x1 x2) ∧
    |camelF (898 / 10 ^ 4) (-(7126 / 10 ^ 4)) - -(10316 / 10 ^ 4)| < 5 / 10 ^ 5 ∧
    |camelF (-(898 / 10 ^ 4)) (7126 / 10 ^ 4) - -(10316 / 10 ^ 4)| < 5 / 10 ^ 5 := by
  refine ⟨fun x1 x2 => ?_, ?_, ?_⟩
  · set r := |x1| with hr
    set y := |x2| with hy
    have hr0 : 0 ≤ r := abs_nonneg _
    have hy0 : 0 ≤ y := abs_nonneg _
    have e1 : x1 ^ 2 = r ^ 2 := (sq_abs x1).symm
    have e2 : x2 ^ 2 = y ^ 2 := (sq_abs x2).symm
    have hxy : -(r * y) ≤ x1 * x2 := by
      rw [hr, hy, ← abs_mul]
      exact neg_abs_le _
    have hf : camelF x1 x2 = (4 - 21 / 10 * x1 ^ 2 + (x1 ^ 2) ^ 2 / 3) * x1 ^ 2 + x1 * x2
        + (-4 + 4 * x2 ^ 2) * x2 ^ 2 := by
      unfold camelF
      ring
    rw [hf, e1, e2]
    -- `|y| <= k y^2 + 1/(4k)` with `k = 0.7017`, then complete the square in `y^2`
    have ht : r * y ≤ r * (7017 / 10 ^ 4 * y ^ 2 + 10 ^ 4 / (4 * 7017)) := by
      refine mul_le_mul_of_nonneg_left ?_ hr0
      nlinarith [sq_nonneg (y - 10 ^ 4 / (2 * 7017))]
    have hsq := sq_nonneg (2 * y ^ 2 - (4 + 7017 / 10 ^ 4 * r) / 4)
    suffices h : 0 ≤ 3163 / 10 ^ 5 - (7017 / 20000 + 10 ^ 4 / (4 * 7017)) * r + (4 - 7017 ^ 2 / (16 * 10 ^ 8)) * r ^ 2
        - 21 / 10 * r ^ 4 + r ^ 6 / 3 by nlinarith
    rcases le_or_gt r (1 / 2) with hle | hgt
    · have h6 : 0 ≤ r ^ 6 := by positivity
      have hq : r ^ 4 - (4 * (898 / 10 ^ 4) ^ 3 * r - 3 * (898 / 10 ^ 4) ^ 4) ≤ 1 / 2 * (r - 898 / 10 ^ 4) ^ 2 := by
        have e : r ^ 4 - (4 * (898 / 10 ^ 4) ^ 3 * r - 3 * (898 / 10 ^ 4) ^ 4)
            = (r ^ 2 + 2 * (898 / 10 ^ 4) * r + 3 * (898 / 10 ^ 4) ^ 2) * (r - 898 / 10 ^ 4) ^ 2 := by ring
        rw [e]
        refine mul_le_mul_of_nonneg_right ?_ (sq_nonneg _)
        nlinarith
      nlinarith [sq_nonneg (r - 898 / 10 ^ 4)]
    · have hg : 0 ≤ r * (r ^ 5 / 3 - 21 / 10 * r ^ 3 + (4 - 7017 ^ 2 / (16 * 10 ^ 8)) * r
          - (7017 / 20000 + 10 ^ 4 / (4 * 7017))) := by
        refine mul_nonneg hr0 ?_
        rcases le_or_gt r (11 / 10) with h1 | h1
        · have h5 : 0 ≤ r ^ 5 := by positivity
          have h2 : r ^ 2 ≤ (11 / 10) ^ 2 := pow_le_pow_left₀ hr0 h1 2
          have h3 : r ^ 3 ≤ (11 / 10) ^ 2 * r := by nlinarith
          norm_num
          nlinarith
        · have h2 := mul_nonneg hr0 (sq_nonneg (r ^ 2 - 315 / 100))
          norm_num
          nlinarith
      nlinarith
  · unfold camelF
    rw [abs_lt]
    constructor <;> norm_num
  · unfold camelF
    rw [abs_lt]
    constructor <;> norm_num

theorem sin_eq_cos_shift (x : ℝ) : Real.sin x = Real.cos (x - 5 * Real.pi / 2) := by
  rw [show x - 5 * Real.pi / 2 = x - Real.pi / 2 - 2 * Real.pi by ring, Real.cos_sub_two_pi,
    Real.cos_sub_pi_div_two]

theorem alpine2_factor_le (x : ℝ) (hx1 : 1 ≤ x) (hx2 : x ≤ 10) : |√x * Real.sin x| ≤ 28083 / 10 ^ 4 := by
  have h1 := Real.pi_gt_d20
  have h2 := Real.pi_lt_d20
  refine abs_le_of_sq_le_sq ?_ (by norm_num)
  rw [mul_pow, Real.sq_sqrt (by linarith)]
  rcases le_or_gt x (788 / 100) with hle | hgt
  · have := Real.sin_sq_le_one x
    have : x * Real.sin x ^ 2 ≤ x * 1 := mul_le_mul_of_nonneg_left this (by linarith)
    norm_num
    linarith
  · rw [sin_eq_cos_shift]
    set δ := x - 5 * Real.pi / 2 with hδ
    have hδ0 : 0 < δ := by rw [hδ]; linarith
    rcases le_or_gt δ 1 with hd1 | hd1
    · have hb := Real.cos_bound (x := δ) (by rw [abs_of_pos hδ0]; exact hd1)
      rw [abs_of_pos hδ0] at hb
      have hu := (abs_le.1 hb).2
      have hc0 : 0 ≤ Real.cos δ := Real.cos_nonneg_of_mem_Icc ⟨by linarith, by linarith⟩
      have hx : x ≤ 785399 / 10 ^ 5 + δ := by rw [hδ]; linarith
      rcases le_or_gt δ (1 / 5) with h5 | h5
      · have hp : Real.cos δ ≤ 1 - 4979 / 10 ^ 4 * δ ^ 2 := by nlinarith [sq_nonneg δ, mul_nonneg (sq_nonneg δ) (by nlinarith : 0 ≤ 1 / 25 - δ ^ 2)]
        have hp2 : Real.cos δ ^ 2 ≤ (1 - 4979 / 10 ^ 4 * δ ^ 2) ^ 2 := pow_le_pow_left₀ hc0 hp 2
        have hp3 : (1 - 4979 / 10 ^ 4 * δ ^ 2) ^ 2 ≤ 1 - 98 / 100 * δ ^ 2 := by
          nlinarith [mul_nonneg (sq_nonneg δ) (by nlinarith : 0 ≤ 1 / 25 - δ ^ 2)]
        have hp4 : x * Real.cos δ ^ 2 ≤ (785399 / 10 ^ 5 + δ) * (1 - 98 / 100 * δ ^ 2) :=
          mul_le_mul hx (hp2.trans hp3) (sq_nonneg _) (by linarith)
        refine hp4.trans ?_
        have : 0 ≤ δ ^ 3 := by positivity
        norm_num
        nlinarith [sq_nonneg (δ - 65 / 1000)]
      · have hp : Real.cos δ ≤ 1 - 44 / 100 * δ ^ 2 := by
          nlinarith [mul_nonneg (sq_nonneg δ) (by nlinarith : 0 ≤ 1 - δ ^ 2)]
        have hp2 : Real.cos δ ^ 2 ≤ (1 - 44 / 100 * δ ^ 2) ^ 2 := pow_le_pow_left₀ hc0 hp 2
        have hp3 : (1 - 44 / 100 * δ ^ 2) ^ 2 ≤ 1 - 68 / 100 * δ ^ 2 := by
          nlinarith [mul_nonneg (sq_nonneg δ) (by nlinarith : 0 ≤ 1 - δ ^ 2)]
        have hp4 : x * Real.cos δ ^ 2 ≤ (785399 / 10 ^ 5 + δ) * (1 - 68 / 100 * δ ^ 2) :=
          mul_le_mul hx (hp2.trans hp3) (sq_nonneg _) (by linarith)
        refine hp4.trans ?_
        have : 0 ≤ δ ^ 3 := by positivity
        norm_num
        nlinarith
    · have hd2 : δ < 215 / 100 := by rw [hδ]; linarith
      have hs : 6 / 10 ≤ Real.sin δ := by
        have hq : 6366 / 10 ^ 4 ≤ 2 / Real.pi := by
          rw [le_div_iff₀ Real.pi_pos]
          linarith
        rcases le_or_gt δ (Real.pi / 2) with hm | hm
        · have := Real.mul_le_sin hδ0.le hm
          nlinarith
        · have := Real.mul_le_sin (x := Real.pi - δ) (by linarith) (by linarith)
          rw [Real.sin_pi_sub] at this
          nlinarith
      have hcc := Real.sin_sq_add_cos_sq δ
      have : Real.cos δ ^ 2 ≤ 64 / 100 := by nlinarith
      have : x * Real.cos δ ^ 2 ≤ 10 * (64 / 100) := mul_le_mul hx2 this (sq_nonneg _) (by norm_num)
      norm_num at this ⊢
      linarith

theorem alpine2_factor_at : 2808 / 1000 ≤ √(7917 / 1000) * Real.sin (7917 / 1000) := by
  have h1 := Real.pi_gt_d6
  have h2 := Real.pi_lt_d6
  have hl : 0 ≤ 7917 / 1000 - 5 * Real.pi / 2 := by
    norm_num at h2
    linarith
  have hu : 7917 / 1000 - 5 * Real.pi / 2 ≤ 631 / 10000 := by
    norm_num at h1
    linarith
  rw [sin_eq_cos_shift]
  generalize hδ : 7917 / 1000 - 5 * Real.pi / 2 = δ at hl hu ⊢
  have hc := Real.one_sub_sq_div_two_le_cos (x := δ)
  have hq : δ ^ 2 ≤ (631 / 10000) ^ 2 := pow_le_pow_left₀ hl hu 2
  have hc2 : 998 / 1000 ≤ Real.cos δ := by
    norm_num at hq
    linarith
  have hs : 28137 / 10000 ≤ √(7917 / 1000) := by
    refine Real.le_sqrt_of_sq_le ?_
    norm_num
  calc (2808 / 1000 : ℝ) ≤ 28137 / 10000 * (998 / 1000) := by norm_num
    _ ≤ _ := mul_le_mul hs hc2 (by norm_num) (Real.sqrt_nonneg _)

/-- **C73 (partial).** Alpine2, in any dimension `d`, on the default box: nowhere below `-2.8083^d`, and at the stated
location at or below the stated `-2.808^d`. -/
theorem C73_alpine2_partial {d : Nat} :
    (∀ x : Fin d → ℝ, (∀ i, 1 ≤ x i ∧ x i ≤ 10) → -((28083 / 10 ^ 4) ^ d) ≤ alpine2F x) ∧
    alpine2F (fun _ : Fin d => 7917 / 1000) ≤ -((2808 / 1000) ^ d) := by
  constructor
  · intro x hx
    unfold alpine2F
    rw [← Finset.prod_mul_distrib]
    have : |∏ i, √(x i) * Real.sin (x i)| ≤ (28083 / 10 ^ 4) ^ d := by
      rw [Finset.abs_prod]
      calc ∏ i, |√(x i) * Real.sin (x i)| ≤ ∏ _i : Fin d, (28083 / 10 ^ 4 : ℝ) :=
            Finset.prod_le_prod (fun _ _ => abs_nonneg _) fun i _ => alpine2_factor_le _ (hx i).1 (hx i).2
        _ = _ := by rw [Finset.prod_const, Finset.card_univ, Fintype.card_fin]
    have := le_abs_self (∏ i, √(x i) * Real.sin (x i))
    linarith
  · unfold alpine2F
    rw [← Finset.prod_mul_distrib, neg_le_neg_iff, Finset.prod_const, Finset.card_univ, Fintype.card_fin]
    exact pow_le_pow_left₀ (by norm_num) alpine2_factor_at d

/-! ## Stated optimum wrong -/

/-- C73 is false of `beale`: the value at the stated minimum (0, 0) is -1 instead of 0, the function is unbounded
below, and also in the default box it takes smaller values. -/
theorem C73_beale_counterexample :
    bealeF 0 0 = -1 ∧ (∀ b, ∃ x1 x2, bealeF x1 x2 < b) ∧ bealeF 1 (-1) = -400 := by
  refine ⟨by norm_num [bealeF], fun b => ⟨1, |b| + 2, ?_⟩, by norm_num [bealeF]⟩
  unfold bealeF
  have := neg_abs_le b
  have := abs_nonneg b
  nlinarith

/-- C73 is false of `dropwave`: the stated minimum (0, 0) is the maximum, with value 1 instead of 0. -/
theorem C73_dropwave_counterexample : dropwaveF 0 0 = 1 ∧ ∀ x1 x2, (x1, x2) ≠ (0, 0) → dropwaveF x1 x2 < 1 := by
  constructor
  · norm_num [dropwaveF]
  · intro x1 x2 h
    have hpos : 0 < x1 ^ 2 + x2 ^ 2 := by
      by_cases h1 : x1 = 0
      · have h2 : x2 ≠ 0 := fun h2 => h (Prod.ext h1 h2)
        positivity
      · positivity
    have hc := Real.cos_le_one (12 * √(x1 ^ 2 + x2 ^ 2))
    unfold dropwaveF
    rw [neg_div, neg_neg, div_lt_one (by positivity)]
    linarith

/-- C73 is false of `cosines`: the least value is -1.6, at 0.3125, and not the stated -1.59622468. -/
theorem C73_cosines_counterexample :
    cosinesF (3125 / 10 ^ 4) (3125 / 10 ^ 4) = -(16 / 10) ∧ (∀ x1 x2, -(16 / 10) ≤ cosinesF x1 x2) ∧
    (-(16 / 10) : ℝ) < -(159622468 / 10 ^ 8) := by
  refine ⟨?_, fun x1 x2 => ?_, by norm_num⟩
  · norm_num [cosinesF]
  · unfold cosinesF
    have h1 := Real.cos_le_one (3 * Real.pi * (16 / 10 * x1 - 1 / 2))
    have h2 := Real.cos_le_one (3 * Real.pi * (16 / 10 * x2 - 1 / 2))
    have h3 := sq_nonneg (16 / 10 * x1 - 1 / 2)
    have h4 := sq_nonneg (16 / 10 * x2 - 1 / 2)
    dsimp only
    linarith

/-- C73 is false of `forrester`: inside the bounds it takes a value below the stated -6 (the code says
"approx"). -/
theorem C73_forrester_counterexample : ∃ x, 0 ≤ x ∧ x ≤ 1 ∧ forresterF x < -6 := by
  refine ⟨(3 * Real.pi / 2 + Real.pi / 8 + 4) / 12, ?_, ?_, ?_⟩
  · have := Real.pi_pos
    positivity
  · have := Real.pi_lt_d20
    rw [div_le_one (by norm_num)]
    linarith
  · have h1 := Real.pi_gt_d20
    unfold forresterF
    rw [show 12 * ((3 * Real.pi / 2 + Real.pi / 8 + 4) / 12) - 4 = Real.pi / 8 + Real.pi / 2 + Real.pi by ring,
      Real.sin_add_pi, Real.sin_add_pi_div_two, Real.cos_pi_div_eight,
      show 6 * ((3 * Real.pi / 2 + Real.pi / 8 + 4) / 12) - 2 = 13 / 16 * Real.pi by ring]
    have hs2 : 14142 / 10 ^ 4 < √2 := by
      rw [Real.lt_sqrt (by norm_num)]
      norm_num
    have hs : 18477 / 10 ^ 4 < √(2 + √2) := by
      rw [Real.lt_sqrt (by norm_num)]
      norm_num
      linarith
    have hp : 6514 / 1000 < (13 / 16 * Real.pi) ^ 2 := by nlinarith
    nlinarith

/-! ## C93: shape of the outputs -/

/-- The documented output of an evaluation: one column, with row `i` the value of row `i` of the input plus its noise. -/
def ColumnOfValues (d : Nat) (g : (Fin d → ℝ) → ℝ) (noise : Nat → ℝ) (X : Arr) (o : BenchOut) : Prop :=
  ∃ a, o = .array a ∧ a.rows = X.rows ∧ a.cols = 1 ∧
    ∀ i < X.rows, a.at' i 0 = g (fun j => X.at' i j) + noise i

theorem benchReshape_same (d : Nat) (hd : 0 < d) (X : Arr) (hX : X.cols = d) :
    (benchReshape d X).rows = X.rows ∧ (benchReshape d X).cols = d ∧
    ∀ i < X.rows, ∀ j : Fin d, (benchReshape d X).at' i j = X.at' i j := by
  unfold benchReshape
  by_cases h1 : X.rows * X.cols = d
  · have hr : X.rows = 1 := by
      rw [hX] at h1
      exact Nat.eq_of_mul_eq_mul_right hd (by omega)
    rw [if_pos h1]
    refine ⟨hr.symm, rfl, fun i hi j => ?_⟩
    have hi0 : i = 0 := by omega
    subst hi0
    change X.at' (j / X.cols) (j % X.cols) = _
    rw [hX, Nat.div_eq_of_lt j.2, Nat.mod_eq_of_lt j.2]
  · rw [if_neg h1]
    exact ⟨rfl, hX, fun _ _ _ => rfl⟩

/-- **C93 (partial).** For an array with `d` columns, evaluations whose noise is a column return one output per row.
Missing: `alpine1` with noise. -/
theorem C93_outputs_partial (d : Nat) (hd : 0 < d) (checked : Bool) (g : (Fin d → ℝ) → ℝ) (noise : Nat → ℝ) (X : Arr)
    (hX : X.cols = d) : ColumnOfValues d g noise X (benchEval d checked false g noise X) := by
  obtain ⟨hr, hc, ha⟩ := benchReshape_same d hd X hX
  have hn : ¬ (checked = true ∧ (benchReshape d X).cols ≠ d) := fun h => h.2 hc
  refine ⟨_, if_neg hn, hr, rfl, fun i hi => ?_⟩
  change (g fun j => (benchReshape d X).at' i j) + noise (if (benchReshape d X).rows = 1 then 0 else i) = _
  have hi' : (if (benchReshape d X).rows = 1 then 0 else i) = i := by
    split
    · omega
    · rfl
  rw [hi']
  congr 2
  funext j
  exact ha i hi j

/-- C93 is false of `alpine1` with noise: for `n > 1` rows the output is an `n` by `n` array, with every value at every
noise. -/
theorem C93_alpine1_counterexample (d : Nat) (hd : 0 < d) (noise : Nat → ℝ) (X : Arr) (hX : X.cols = d)
    (hn : 1 < X.rows) : (∃ a, benchEval d false true alpine1F noise X = .array a ∧ a.rows = X.rows ∧ a.cols = X.rows ∧
      ∀ i < X.rows, ∀ j, a.at' i j = alpine1F (fun k : Fin d => X.at' i k) + noise j) ∧
    ¬ ColumnOfValues d alpine1F noise X (benchEval d false true alpine1F noise X) := by
  obtain ⟨hr, hc, ha⟩ := benchReshape_same d hd X hX
  have hq : ¬ (false = true ∧ (benchReshape d X).cols ≠ d) := fun h => h.2 hc
  have key : ∃ a, benchEval d false true alpine1F noise X = .array a ∧ a.rows = X.rows ∧ a.cols = X.rows ∧
      ∀ i < X.rows, ∀ j, a.at' i j = alpine1F (fun k : Fin d => X.at' i k) + noise j :=
    ⟨_, if_neg (t := BenchOut.string) hq, hr, hr, fun i hi j => by
      change alpine1F (fun k : Fin d => (benchReshape d X).at' i k) + noise j = _
      congr 2
      funext k
      exact ha i hi k⟩
  refine ⟨key, ?_⟩
  rintro ⟨b, hb, _, hb1, _⟩
  obtain ⟨a, he, _, hac, _⟩ := key
  rw [he] at hb
  cases hb
  omega

/-- Wrong numbers of columns: the two-dimensional examples return a string instead of raising, and an array of two
rows and one column is accepted as one location. -/
theorem C93_wrong_dimension_counterexample (g : (Fin 2 → ℝ) → ℝ) (noise : Nat → ℝ) (X : Arr) :
    (X.cols = 3 → benchEval 2 true false g noise X = .string) ∧
    (X.rows = 2 → X.cols = 1 → ∃ a, benchEval 2 true false g noise X = .array a ∧ a.rows = 1) := by
  constructor
  · intro h
    have h1 : ¬ X.rows * X.cols = 2 := by rw [h]; omega
    have h2 : benchReshape 2 X = X := if_neg h1
    unfold benchEval
    rw [h2]
    exact if_pos ⟨rfl, by omega⟩
  · intro h1 h2
    have h3 : X.rows * X.cols = 2 := by rw [h1, h2]
    unfold benchEval benchReshape
    simp only [if_pos h3]
    exact ⟨_, rfl, rfl⟩

/-- Three rows of two columns. -/
example : ColumnOfValues 2 (fun x => rosenbrockF (x 0) (x 1)) (fun _ => 0) ⟨3, 2, fun i j => i + j⟩
    (benchEval 2 true false (fun x => rosenbrockF (x 0) (x 1)) (fun _ => 0) ⟨3, 2, fun i j => i + j⟩) :=
  C93_outputs_partial 2 (by norm_num) _ _ _ _ rfl

/-- The hypotheses of `C73_ackley_partial`, `C73_gSobol_partial` and `C73_alpine2_partial` hold of a point. -/
example : 0 < ackleyF (fun _ : Fin 3 => 1) ∧ gSobolF (fun _ : Fin 2 => 1) (fun _ => 1 / 2) ≤ gSobolF (fun _ : Fin 2 => 1) (fun _ => 5) ∧
    -((28083 / 10 ^ 4) ^ 4) ≤ alpine2F (fun _ : Fin 4 => 2) :=
  ⟨(C73_ackley_partial (by norm_num)).2 _ fun h => by simpa using congrFun h 0,
    C73_gSobol_partial _ (fun _ => one_pos) _, C73_alpine2_partial.1 _ fun _ => by norm_num⟩

end GPyOpt.Props
