import Verif.Spec.Float
import Mathlib.Data.Int.Log
import Mathlib.Algebra.Order.Round
import Mathlib.Data.Rat.Floor
import Mathlib.Tactic.Linarith
import Mathlib.Tactic.Ring
import Mathlib.Tactic.NormNum
import Mathlib.Tactic.Positivity
import Mathlib.Tactic.FieldSimp
import Mathlib.Tactic.Push

/-!
# Lemmas on floating-point numbers
-/

namespace GPyOpt

open Spec

theorem isFloat_zero (p : ℕ) : IsFloat p 0 := ⟨0, 0, by simp, by simp⟩

theorem isFloat_int {p : ℕ} {m : ℤ} (h : |m| < 2 ^ p) : IsFloat p m := ⟨m, 0, h, by simp⟩

theorem isFloat_pow {p : ℕ} (hp : 1 ≤ p) (k : ℤ) : IsFloat p ((2 : ℚ) ^ k) := by
  refine ⟨1, k, ?_, by simp⟩
  rw [abs_one]
  exact one_lt_pow₀ (by norm_num) (by omega)

theorem isFloat_one {p : ℕ} (hp : 1 ≤ p) : IsFloat p 1 := by simpa using isFloat_pow hp 0

theorem Spec.IsFloat.neg {p : ℕ} {x : ℚ} (h : IsFloat p x) : IsFloat p (-x) := by
  obtain ⟨m, e, h1, rfl⟩ := h
  exact ⟨-m, e, by rwa [abs_neg], by push_cast; ring⟩

theorem Spec.IsFloat.mul_pow {p : ℕ} {x : ℚ} (h : IsFloat p x) (k : ℤ) : IsFloat p (x * (2 : ℚ) ^ k) := by
  obtain ⟨m, e, h1, rfl⟩ := h
  exact ⟨m, e + k, h1, by rw [zpow_add₀ (by norm_num)]; ring⟩

theorem Spec.IsFloat.two_mul {p : ℕ} {x : ℚ} (h : IsFloat p x) : IsFloat p (2 * x) := by
  have := h.mul_pow 1
  rwa [zpow_one, mul_comm] at this

/-- Integers up to `2 ^ p` times a power of two are floating-point numbers. -/
theorem isFloat_of_le {p : ℕ} (hp : 1 ≤ p) {j : ℤ} (h : |j| ≤ 2 ^ p) (k : ℤ) : IsFloat p (j * (2 : ℚ) ^ k) := by
  rcases h.lt_or_eq with h | h
  · exact ⟨j, k, h, rfl⟩
  · have h2 : (2 : ℚ) ^ (p : ℤ) = 2 ^ p := zpow_natCast 2 p
    rcases abs_choice j with hj | hj
    · rw [hj] at h
      have := isFloat_pow hp (p + k)
      rw [zpow_add₀ (by norm_num), h2] at this
      rw [h]; push_cast; exact this
    · rw [hj] at h
      have := (isFloat_pow hp (p + k)).neg
      rw [zpow_add₀ (by norm_num), h2] at this
      rw [show j = -2 ^ p by linarith]
      push_cast
      rw [neg_mul]; exact this

/-- Floating-point numbers that are not small are multiples of a power of two. -/
theorem Spec.IsFloat.multiple {p : ℕ} {z : ℚ} (h : IsFloat p z) {k : ℤ} (hz : (2 : ℚ) ^ ((p : ℤ) - 1 + k) ≤ |z|) :
    ∃ j : ℤ, z = j * (2 : ℚ) ^ k := by
  obtain ⟨m, e, h1, rfl⟩ := h
  have he : k ≤ e := by
    by_contra hlt
    push Not at hlt
    have h2 : |(m : ℚ) * (2 : ℚ) ^ e| < 2 ^ ((p : ℤ) + e) := by
      rw [abs_mul, abs_of_pos (zpow_pos (by norm_num : (0 : ℚ) < 2) e), zpow_add₀ (by norm_num), zpow_natCast]
      refine mul_lt_mul_of_pos_right ?_ (zpow_pos (by norm_num) e)
      exact_mod_cast h1
    have h3 : (2 : ℚ) ^ ((p : ℤ) + e) ≤ 2 ^ ((p : ℤ) - 1 + k) := zpow_le_zpow_right₀ (by norm_num) (by omega)
    linarith
  refine ⟨m * 2 ^ (e - k).toNat, ?_⟩
  push_cast
  rw [← zpow_natCast (2 : ℚ), Int.toNat_of_nonneg (by omega), mul_assoc, ← zpow_add₀ (by norm_num)]
  congr 2
  omega

/-- A floating-point number below one is at most `1 - 2 ^ (-p)`. -/
theorem Spec.IsFloat.le_of_lt_one {p : ℕ} (hp : 1 ≤ p) {u : ℚ} (h : IsFloat p u) (hu : u < 1) : u ≤ 1 - (2 : ℚ) ^ (-(p : ℤ)) := by
  have hhalf : (2 : ℚ) ^ (-(p : ℤ)) ≤ 1 / 2 := by
    have := zpow_le_zpow_right₀ (by norm_num : (1 : ℚ) ≤ 2) (show -(p : ℤ) ≤ -1 by omega)
    simpa using this
  by_cases hs : u < 1 / 2
  · linarith
  · push Not at hs
    have e : (2 : ℚ) ^ ((p : ℤ) - 1 + -(p : ℤ)) = 1 / 2 := by
      rw [show (p : ℤ) - 1 + -(p : ℤ) = -1 by ring]; norm_num
    obtain ⟨j, hj⟩ := h.multiple (k := -(p : ℤ)) (by rw [e, abs_of_nonneg (by linarith)]; exact hs)
    have hk : (0 : ℚ) < 2 ^ (-(p : ℤ)) := zpow_pos (by norm_num) _
    have hone : (1 : ℚ) = (2 ^ p : ℤ) * (2 : ℚ) ^ (-(p : ℤ)) := by
      push_cast
      rw [← zpow_natCast (2 : ℚ) p, ← zpow_add₀ (by norm_num)]
      simp
    have hlt : j < 2 ^ p := by
      rw [hj, hone] at hu
      have := lt_of_mul_lt_mul_right hu hk.le
      exact_mod_cast this
    have hle : (j : ℚ) ≤ (2 ^ p : ℤ) - 1 := by exact_mod_cast Int.le_sub_one_of_lt hlt
    have := mul_le_mul_of_nonneg_right hle hk.le
    rw [hj]
    linarith

/-! ## Rounding to nearest -/

section
variable {p : ℕ} {rd : ℚ → ℚ} (H : RoundsToNearest p rd)
include H

/-- Floating-point numbers are not changed. -/
theorem rd_float {x : ℚ} (h : IsFloat p x) : rd x = x := by
  have := H.nearest x x h
  rw [sub_self, abs_zero] at this
  exact sub_eq_zero.1 (abs_eq_zero.1 (le_antisymm this (abs_nonneg _)))

theorem rd_zero : rd 0 = 0 := rd_float H (isFloat_zero p)

theorem rd_mono {x y : ℚ} (h : x ≤ y) : rd x ≤ rd y := by
  rcases h.eq_or_lt with rfl | h
  · exact le_rfl
  · by_contra hlt
    push Not at hlt
    have h1 := H.nearest x (rd y) (H.isFloat y)
    have h2 := H.nearest y (rd x) (H.isFloat x)
    rw [← sq_le_sq] at h1 h2
    nlinarith

theorem rd_le {x y : ℚ} (hy : IsFloat p y) (h : x ≤ y) : rd x ≤ y := by
  have := rd_mono H h
  rwa [rd_float H hy] at this

theorem le_rd {x y : ℚ} (hy : IsFloat p y) (h : y ≤ x) : y ≤ rd x := by
  have := rd_mono H h
  rwa [rd_float H hy] at this

theorem rd_nonneg {x : ℚ} (h : 0 ≤ x) : 0 ≤ rd x := le_rd H (isFloat_zero p) h

theorem rd_pos (hp : 1 ≤ p) {x : ℚ} (h : 0 < x) : 0 < rd x := by
  have h2 := Int.zpow_log_le_self (b := 2) (r := x) (by norm_num) h
  have := le_rd H (isFloat_pow hp (Int.log 2 x)) (by exact_mod_cast h2)
  exact (zpow_pos (by norm_num) _).trans_le this

/-- A multiple of the right power of two at a distance of less than half of it is the result of the rounding. -/
theorem rd_eq {x y : ℚ} (hy : IsFloat p y) {k j : ℤ} (hj : y = j * (2 : ℚ) ^ k) (hp : 1 ≤ p)
    (hx : (2 : ℚ) ^ ((p : ℤ) - 1 + k) ≤ x) (hd : 2 * |y - x| < (2 : ℚ) ^ k) :
    rd x = y := by
  have hk : (0 : ℚ) < 2 ^ k := zpow_pos (by norm_num) k
  have hBpos : (0 : ℚ) < (2 : ℚ) ^ ((p : ℤ) - 1 + k) := zpow_pos (by norm_num) _
  have hnear := H.nearest x y hy
  have hfl := H.isFloat x
  have hge : (2 : ℚ) ^ ((p : ℤ) - 1 + k) ≤ rd x := le_rd H (isFloat_pow hp _) hx
  obtain ⟨i, hi⟩ := hfl.multiple (k := k) (by rwa [abs_of_pos (hBpos.trans_le hge)])
  have hdist : |rd x - y| < 2 ^ k := by
    have := abs_sub_le (rd x) x y
    rw [abs_sub_comm x y] at this
    linarith
  rw [hi, hj, ← sub_mul, abs_mul, abs_of_pos hk] at hdist
  have hlt : |(i : ℚ) - j| < 1 := by
    by_contra hcon
    push Not at hcon
    have := mul_le_mul_of_nonneg_right hcon hk.le
    linarith
  have : |i - j| < 1 := by exact_mod_cast hlt
  have : i = j := by have := abs_lt.1 this; omega
  rw [hi, hj, this]

/-- The relative error of rounding a positive number. -/
theorem rd_error (hp : 1 ≤ p) {x : ℚ} (h : 0 < x) : |rd x - x| ≤ x * (2 : ℚ) ^ (-(p : ℤ)) := by
  have h1 : (2 : ℚ) ^ Int.log 2 x ≤ x := by exact_mod_cast Int.zpow_log_le_self (b := 2) (r := x) (by norm_num) h
  have h2 : x < (2 : ℚ) ^ (Int.log 2 x + 1) := by exact_mod_cast Int.lt_zpow_succ_log_self (b := 2) (by norm_num) x
  set L := Int.log 2 x with hL
  have hk : (0 : ℚ) < 2 ^ (L + 1 - p) := zpow_pos (by norm_num) _
  have hfl : IsFloat p ((round (x / (2 : ℚ) ^ (L + 1 - p)) : ℤ) * (2 : ℚ) ^ (L + 1 - p)) := by
    refine isFloat_of_le hp ?_ _
    have hq0 : 0 ≤ x / (2 : ℚ) ^ (L + 1 - p) := by positivity
    have hq : x / (2 : ℚ) ^ (L + 1 - p) < 2 ^ p := by
      rw [div_lt_iff₀ hk, ← zpow_natCast (2 : ℚ) p, ← zpow_add₀ (by norm_num)]
      rwa [show (p : ℤ) + (L + 1 - p) = L + 1 by ring]
    have ha := abs_sub_round (x / (2 : ℚ) ^ (L + 1 - p))
    have hb := abs_le.1 ha
    rw [abs_le]
    constructor
    · have : (-1 : ℚ) < (round (x / (2 : ℚ) ^ (L + 1 - p)) : ℤ) := by linarith [hb.2]
      have h3 : (-1 : ℤ) < round (x / (2 : ℚ) ^ (L + 1 - p)) := by exact_mod_cast this
      have : (0 : ℤ) < 2 ^ p := by positivity
      omega
    · have : ((round (x / (2 : ℚ) ^ (L + 1 - p)) : ℤ) : ℚ) < (2 ^ p : ℤ) + 1 := by push_cast; linarith [hb.1]
      have h3 : round (x / (2 : ℚ) ^ (L + 1 - p)) < 2 ^ p + 1 := by exact_mod_cast this
      omega
  refine (H.nearest x _ hfl).trans ?_
  have ha := abs_sub_round (x / (2 : ℚ) ^ (L + 1 - p))
  have e : |(round (x / (2 : ℚ) ^ (L + 1 - p)) : ℤ) * (2 : ℚ) ^ (L + 1 - p) - x|
      = |x / (2 : ℚ) ^ (L + 1 - p) - (round (x / (2 : ℚ) ^ (L + 1 - p)) : ℤ)| * (2 : ℚ) ^ (L + 1 - p) := by
    rw [← abs_of_pos hk, ← abs_mul, abs_of_pos hk, ← abs_neg]
    congr 1
    field_simp
    ring
  rw [e]
  have e2 : (2 : ℚ) ^ (L + 1 - p) = 2 * ((2 : ℚ) ^ L * (2 : ℚ) ^ (-(p : ℤ))) := by
    rw [← zpow_add₀ (by norm_num), ← zpow_one_add₀ (by norm_num)]
    congr 1; ring
  have hpp : (0 : ℚ) < 2 ^ (-(p : ℤ)) := zpow_pos (by norm_num) _
  calc |x / (2 : ℚ) ^ (L + 1 - p) - (round (x / (2 : ℚ) ^ (L + 1 - p)) : ℤ)| * (2 : ℚ) ^ (L + 1 - p)
      ≤ 1 / 2 * (2 : ℚ) ^ (L + 1 - p) := mul_le_mul_of_nonneg_right ha hk.le
    _ = (2 : ℚ) ^ L * (2 : ℚ) ^ (-(p : ℤ)) := by rw [e2]; ring
    _ ≤ x * (2 : ℚ) ^ (-(p : ℤ)) := mul_le_mul_of_nonneg_right h1 hpp.le

/-- A product with a factor below one is smaller, also after rounding. -/
theorem rd_mul_lt (hp : 1 ≤ p) {D u : ℚ} (hD : IsFloat p D) (hD0 : 0 < D) (hu : IsFloat p u) (hu1 : u < 1) :
    rd (u * D) < D := by
  have hle := hu.le_of_lt_one hp hu1
  have hpp : (0 : ℚ) < 2 ^ (-(p : ℤ)) := zpow_pos (by norm_num) _
  have hlt : u * D ≤ D - D * 2 ^ (-(p : ℤ)) := by
    have := mul_le_mul_of_nonneg_right hle hD0.le
    linarith
  have hle' : rd (u * D) ≤ D := rd_le H hD (by nlinarith)
  refine lt_of_le_of_ne hle' fun heq => ?_
  -- the number below `D` is nearer
  have h1 : (2 : ℚ) ^ Int.log 2 D ≤ D := by exact_mod_cast Int.zpow_log_le_self (b := 2) (r := D) (by norm_num) hD0
  set L := Int.log 2 D with hL
  have e2 : (2 : ℚ) ^ (L + 1 - p) = 2 * ((2 : ℚ) ^ L * (2 : ℚ) ^ (-(p : ℤ))) := by
    rw [← zpow_add₀ (by norm_num), ← zpow_one_add₀ (by norm_num)]
    congr 1; ring
  have hk : (0 : ℚ) < 2 ^ (L + 1 - p) := zpow_pos (by norm_num) _
  rcases h1.eq_or_lt with hpow | hlt1
  · -- a power of two
    have hP : IsFloat p (D - D * 2 ^ (-(p : ℤ))) := by
      have hj : |(2 ^ p - 1 : ℤ)| < 2 ^ p := by
        have : (1 : ℤ) ≤ 2 ^ p := one_le_pow₀ (by norm_num)
        rw [abs_of_nonneg (by omega)]; omega
      have := (isFloat_int (p := p) hj).mul_pow (L - p)
      convert this using 1
      rw [← hpow]
      push_cast
      rw [zpow_sub₀ (by norm_num), zpow_natCast, zpow_neg, zpow_natCast]
      field_simp
    have := H.nearest (u * D) _ hP
    have hq : 0 < D * 2 ^ (-(p : ℤ)) := by positivity
    rw [heq, abs_of_nonneg (by linarith), abs_of_nonneg (by linarith)] at this
    linarith
  · obtain ⟨j, hj⟩ := hD.multiple (k := L + 1 - p) (by
      rw [abs_of_pos hD0, show (p : ℤ) - 1 + (L + 1 - p) = L by ring]; exact h1)
    have hj0 : 0 < j := by
      have : (0 : ℚ) < j := by
        by_contra hcon
        push Not at hcon
        have := mul_nonpos_of_nonpos_of_nonneg hcon hk.le
        linarith
      exact_mod_cast this
    have h2 : D < (2 : ℚ) ^ (L + 1) := by exact_mod_cast Int.lt_zpow_succ_log_self (b := 2) (by norm_num) D
    have hjp : j < 2 ^ p := by
      have : (j : ℚ) * 2 ^ (L + 1 - p) < (2 ^ p : ℤ) * 2 ^ (L + 1 - p) := by
        rw [← hj]
        push_cast
        rw [← zpow_natCast (2 : ℚ) p, ← zpow_add₀ (by norm_num), show (p : ℤ) + (L + 1 - p) = L + 1 by ring]
        exact h2
      have := lt_of_mul_lt_mul_right this hk.le
      exact_mod_cast this
    have hP : IsFloat p (D - 2 ^ (L + 1 - p)) := by
      refine ⟨j - 1, L + 1 - p, ?_, ?_⟩
      · rw [abs_of_nonneg (by omega)]; omega
      · rw [hj]; push_cast; ring
    have := H.nearest (u * D) _ hP
    rw [heq, abs_of_nonneg (by nlinarith)] at this
    have hgap : (2 : ℚ) ^ L * (2 : ℚ) ^ (-(p : ℤ)) < D * 2 ^ (-(p : ℤ)) := mul_lt_mul_of_pos_right hlt1 hpp
    rcases le_total 0 (D - 2 ^ (L + 1 - p) - u * D) with hs | hs
    · rw [abs_of_nonneg hs] at this; linarith
    · rw [abs_of_nonpos hs] at this; linarith

/-- `lo + u * (hi - lo)` in floating-point arithmetic stays between `lo` and `hi`, for `u` in `[0, 1)`. -/
theorem rd_affine (hp : 1 ≤ p) {lo hi u : ℚ} (hlo : IsFloat p lo) (hhi : IsFloat p hi) (hle : lo ≤ hi) (hu : IsFloat p u)
    (hu0 : 0 ≤ u) (hu1 : u < 1) : lo ≤ rd (lo + rd (u * rd (hi - lo))) ∧ rd (lo + rd (u * rd (hi - lo))) ≤ hi := by
  have hD : IsFloat p (rd (hi - lo)) := H.isFloat _
  have hd0 : 0 ≤ hi - lo := by linarith
  have hD0 : 0 ≤ rd (hi - lo) := rd_nonneg H hd0
  have hr0 : 0 ≤ rd (u * rd (hi - lo)) := rd_nonneg H (mul_nonneg hu0 hD0)
  refine ⟨le_rd H hlo (by linarith), rd_le H hhi ?_⟩
  suffices rd (u * rd (hi - lo)) ≤ hi - lo by linarith
  rcases hD0.eq_or_lt with h0 | hpos
  · rw [← h0, mul_zero, rd_zero H]; exact hd0
  · have hlt := rd_mul_lt H hp hD hpos hu hu1
    by_contra hcon
    push Not at hcon
    have := H.nearest (hi - lo) _ (H.isFloat (u * rd (hi - lo)))
    rw [abs_of_nonneg (by linarith), abs_of_nonneg (by linarith)] at this
    linarith

end

/-! ## A rounding exists -/

/-- Rounding to `p` binary digits. -/
def roundFloat (p : ℕ) (x : ℚ) : ℚ :=
  (round (x / (2 : ℚ) ^ (Int.log 2 |x| + 1 - p)) : ℤ) * (2 : ℚ) ^ (Int.log 2 |x| + 1 - p)

theorem roundFloat_nearest {p : ℕ} (hp : 1 ≤ p) : RoundsToNearest p (roundFloat p) := by
  have hgen : ∀ x : ℚ, IsFloat p (roundFloat p x) ∧ ∀ y, IsFloat p y → |roundFloat p x - x| ≤ |y - x| := by
    intro x
    rcases eq_or_ne x 0 with rfl | hx
    · have : roundFloat p 0 = 0 := by simp [roundFloat]
      rw [this]
      exact ⟨isFloat_zero p, fun y _ => by simp⟩
    have hax : 0 < |x| := abs_pos.2 hx
    have h1 : (2 : ℚ) ^ Int.log 2 |x| ≤ |x| := by
      exact_mod_cast Int.zpow_log_le_self (b := 2) (r := |x|) (by norm_num) hax
    have h2 : |x| < (2 : ℚ) ^ (Int.log 2 |x| + 1) := by
      exact_mod_cast Int.lt_zpow_succ_log_self (b := 2) (by norm_num) |x|
    unfold roundFloat
    set L := Int.log 2 |x| with hL
    have hk : (0 : ℚ) < 2 ^ (L + 1 - p) := zpow_pos (by norm_num) _
    have hq : |x / (2 : ℚ) ^ (L + 1 - p)| < 2 ^ p := by
      rw [abs_div, abs_of_pos hk, div_lt_iff₀ hk, ← zpow_natCast (2 : ℚ) p, ← zpow_add₀ (by norm_num)]
      rwa [show (p : ℤ) + (L + 1 - p) = L + 1 by ring]
    have ha := abs_sub_round (x / (2 : ℚ) ^ (L + 1 - p))
    have hdist : ∀ i : ℤ, |(i : ℚ) * (2 : ℚ) ^ (L + 1 - p) - x|
        = |x / (2 : ℚ) ^ (L + 1 - p) - i| * (2 : ℚ) ^ (L + 1 - p) := by
      intro i
      rw [← abs_of_pos hk, ← abs_mul, abs_of_pos hk, ← abs_neg]
      congr 1
      field_simp
      ring
    have hmin : ∀ i : ℤ, |(round (x / (2 : ℚ) ^ (L + 1 - p)) : ℤ) * (2 : ℚ) ^ (L + 1 - p) - x|
        ≤ |(i : ℚ) * (2 : ℚ) ^ (L + 1 - p) - x| := by
      intro i
      rw [hdist, hdist]
      exact mul_le_mul_of_nonneg_right (round_le _ i) hk.le
    constructor
    · refine isFloat_of_le hp ?_ _
      have hb := abs_le.1 ha
      have hc := abs_lt.1 hq
      rw [abs_le]
      constructor
      · have : (-(2 ^ p : ℤ) : ℚ) - 1 < (round (x / (2 : ℚ) ^ (L + 1 - p)) : ℤ) := by push_cast; linarith [hb.2, hc.1]
        have h3 : -2 ^ p - 1 < round (x / (2 : ℚ) ^ (L + 1 - p)) := by exact_mod_cast this
        omega
      · have : ((round (x / (2 : ℚ) ^ (L + 1 - p)) : ℤ) : ℚ) < (2 ^ p : ℤ) + 1 := by push_cast; linarith [hb.1, hc.2]
        have h3 : round (x / (2 : ℚ) ^ (L + 1 - p)) < 2 ^ p + 1 := by exact_mod_cast this
        omega
    · intro y hy
      have hB : (2 : ℚ) ^ ((p : ℤ) - 1 + (L + 1 - p)) = 2 ^ L := by congr 1; ring
      rcases le_or_gt ((2 : ℚ) ^ L) |y| with hbig | hsmall
      · obtain ⟨j, hj⟩ := hy.multiple (k := L + 1 - p) (by rwa [hB])
        rw [hj]
        exact hmin j
      · -- the power of two at the lower end is nearer
        have hpow : (2 : ℚ) ^ L = ((2 ^ (p - 1) : ℕ) : ℤ) * (2 : ℚ) ^ (L + 1 - p) := by
          push_cast
          rw [← zpow_natCast (2 : ℚ), ← zpow_add₀ (by norm_num)]
          congr 1
          push_cast [Nat.cast_sub hp]
          ring
        rcases le_or_gt 0 x with hx0 | hx0
        · rw [abs_of_nonneg hx0] at h1
          refine (hmin ((2 ^ (p - 1) : ℕ) : ℤ)).trans ?_
          rw [← hpow]
          have := (abs_lt.1 hsmall).2
          rw [abs_of_nonpos (by linarith), abs_of_nonpos (by linarith)]
          linarith
        · rw [abs_of_neg hx0] at h1
          refine (hmin (-((2 ^ (p - 1) : ℕ) : ℤ))).trans ?_
          have e : ((-((2 ^ (p - 1) : ℕ) : ℤ) : ℤ) : ℚ) * (2 : ℚ) ^ (L + 1 - p) = -(2 : ℚ) ^ L := by
            rw [hpow]; push_cast; ring
          rw [e]
          have := (abs_lt.1 hsmall).1
          rw [abs_of_nonneg (by linarith), abs_of_nonneg (by linarith)]
          linarith
  exact ⟨fun x => (hgen x).1, fun x => (hgen x).2⟩

end GPyOpt
