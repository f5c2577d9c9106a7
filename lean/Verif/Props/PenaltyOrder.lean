import Verif.Props.Penalty

/-!
# Property C152: local penalization starts from the acquisition
-/

namespace GPyOpt.Props

open GPyOpt Spec

theorem softplus_strictMono {g g' : ℝ} (h : g < g') :
    Real.log (Real.log (1 + Real.exp g)) < Real.log (Real.log (1 + Real.exp g')) := by
  refine Real.log_lt_log (softplus_pos g) (Real.log_lt_log (by positivity) ?_)
  have := Real.exp_lt_exp.2 h
  linarith

/-- Two values of an acquisition (to be minimized) that the penalized acquisition compares correctly: values that are not
positive for the acquisitions that are not LCB; for LCB, values on the same side of `-40`. -/
def SameBranch (isLCB : Bool) (a b : ℝ) : Prop :=
  if isLCB then (-40 < a ↔ -40 < b) else a ≤ 0 ∧ b ≤ 0

theorem lpValue_none_lt {d : Nat} {isLCB : Bool} {a b : ℝ} (h : SameBranch isLCB a b) (hab : a < b) (x y : Pt d) :
    lpValue (lpTransform "none" isLCB) a none x < lpValue (lpTransform "none" isLCB) b none y := by
  unfold SameBranch at h
  cases isLCB with
  | true =>
    simp only [if_true] at h
    simp only [lpValue, lpTransform, if_true, lpTransformed, neg_lt_neg_iff]
    by_cases h40 : -40 < b
    · have ha := h.2 h40
      rw [if_neg (by linarith), if_neg (by linarith)]
      exact softplus_strictMono (by linarith)
    · have ha := mt h.1 h40
      rw [if_pos (by linarith), if_pos (by linarith)]
      exact Real.log_lt_log (by linarith) (by linarith)
  | false =>
    simp only [Bool.false_eq_true, if_false] at h
    simp only [lpValue, lpTransform, if_true, Bool.false_eq_true, if_false, lpTransformed, neg_lt_neg_iff]
    exact Real.log_lt_log (by linarith [h.2, (by positivity : (0 : ℝ) < 1 / 10 ^ 50)]) (by linarith)

/-- **C152.** Without pending locations, and with the default transform, the penalized acquisition orders two locations as the
acquisition itself does. -/
theorem C152_same_order {d : Nat} {isLCB : Bool} {a b : ℝ} (h : SameBranch isLCB a b) (x y : Pt d) :
    lpValue (lpTransform "none" isLCB) a none x ≤ lpValue (lpTransform "none" isLCB) b none y ↔ a ≤ b := by
  constructor
  · intro hle
    by_contra hlt
    have h' : SameBranch isLCB b a := by
      unfold SameBranch at h ⊢
      split_ifs at h ⊢
      · exact h.symm
      · exact h.symm
    exact absurd hle (not_le.2 (lpValue_none_lt h' (not_le.1 hlt) y x))
  · intro hle
    rcases eq_or_lt_of_le hle with rfl | hlt
    · simp [lpValue]
    · exact (lpValue_none_lt h hlt x y).le

/-- **C152.** With a transform of another name than `'none'` and `'softplus'` the acquisition is used as it is. -/
theorem C152_other_transform {d : Nat} (name : String) (h1 : name ≠ "none") (h2 : name ≠ "softplus") (isLCB : Bool)
    (a : ℝ) (x : Pt d) : lpValue (lpTransform name isLCB) a none x = a := by
  simp [lpValue, lpTransform, h1, h2, lpTransformed]

/-- **C152 (the first location).** A minimizer of the penalized acquisition over a set of locations, none of them pending, is
a minimizer of the acquisition there: for EI and MPI (values that are not positive), and for LCB as long as all values are
greater than `-40`. -/
theorem C152_first_location {d : Nat} (isLCB : Bool) (acq : Pt d → ℝ) (D : Set (Pt d))
    (hD : ∀ x ∈ D, if isLCB then -40 < acq x else acq x ≤ 0) (x : Pt d) (hx : x ∈ D)
    (hmin : ∀ y ∈ D, lpValue (lpTransform "none" isLCB) (acq x) none x ≤ lpValue (lpTransform "none" isLCB) (acq y) none y) :
    ∀ y ∈ D, acq x ≤ acq y := by
  intro y hy
  refine (C152_same_order ?_ x y).1 (hmin y hy)
  have h1 := hD x hx
  have h2 := hD y hy
  unfold SameBranch
  split_ifs at h1 h2 ⊢
  · exact ⟨fun _ => h2, fun _ => h1⟩
  · exact ⟨h1, h2⟩

theorem softplus_excess (g : ℝ) : Real.log (1 + Real.exp g) ≤ g + Real.exp (-g) := by
  have h1 : 1 + Real.exp g = Real.exp g * (1 + Real.exp (-g)) := by
    rw [mul_add, mul_one, ← Real.exp_add, add_neg_cancel, Real.exp_zero, add_comm]
  rw [h1, Real.log_mul (Real.exp_pos _).ne' (by positivity), Real.log_exp]
  have := Real.log_le_sub_one_of_pos (show 0 < 1 + Real.exp (-g) by positivity)
  linarith

/-- **C152 (LCB, all values).** A location that the penalized acquisition does not find worse is not worse for LCB either, up
to `2 exp (-40)`, and exactly if its value is at most `-40`. -/
theorem C152_lcb_error {d : Nat} {a b : ℝ} (x y : Pt d)
    (h : lpValue (lpTransform "none" true) a none x ≤ lpValue (lpTransform "none" true) b none y) :
    a ≤ b + 2 * Real.exp (-40) ∧ (a ≤ -40 → a ≤ b) := by
  have he := Real.exp_pos (-40 : ℝ)
  by_cases hs : SameBranch true a b
  · have := (C152_same_order hs x y).1 h
    exact ⟨by linarith, fun _ => this⟩
  · simp only [SameBranch, if_true] at hs
    by_cases ha : -40 < a
    · have hb : b ≤ -40 := by
        by_contra hb
        exact hs ⟨fun _ => not_le.1 hb, fun _ => ha⟩
      simp only [lpValue, lpTransform, if_true, lpTransformed, neg_le_neg_iff] at h
      rw [if_neg (by linarith : ¬ 40 ≤ -a), if_pos (by linarith : 40 ≤ -b)] at h
      have h1 := (Real.log_le_log_iff (by linarith : (0 : ℝ) < -b) (softplus_pos _)).1 h
      have h2 := softplus_excess (-a)
      refine ⟨?_, fun h => absurd h (not_le.2 ha)⟩
      have h3 : Real.exp 40 ≤ 1 + Real.exp (-a) := by
        rw [← Real.le_log_iff_exp_le (by positivity)]
        linarith
      have h4 : (2 : ℝ) ≤ Real.exp 40 := by
        have := Real.add_one_le_exp (40 : ℝ)
        linarith
      have h5 : Real.exp (-(-a)) ≤ 2 * Real.exp (-40) := by
        rw [Real.exp_neg (-a), Real.exp_neg 40, inv_le_iff_one_le_mul₀ (Real.exp_pos _), mul_assoc, mul_comm (Real.exp 40)⁻¹,
          ← mul_assoc, ← div_eq_mul_inv, one_le_div₀ (Real.exp_pos _)]
        linarith
      linarith
    · have hb : -40 < b := by
        by_contra hb
        exact hs ⟨fun h => absurd h ha, fun h => absurd h hb⟩
      exact ⟨by linarith, fun h => by linarith⟩

/-- **C152 (negation, LCB).** The two branches of softplus do not meet at `40`: there are values of LCB, one at most `-40`, that
the penalized acquisition orders the wrong way round. -/
theorem C152_switch_counterexample (d : Nat) (x : Pt d) :
    ∃ a b : ℝ, b < a ∧ lpValue (lpTransform "none" true) a none x < lpValue (lpTransform "none" true) b none x := by
  have h1 : (1 : ℝ) < Real.exp 40 := by
    have := Real.add_one_le_exp (40 : ℝ)
    linarith
  have h2 : Real.log (Real.exp 40 - 1) < 40 := by
    rw [Real.log_lt_iff_lt_exp (by linarith)]
    linarith
  obtain ⟨g, g1, g2⟩ := exists_between h2
  refine ⟨-g, -40, by linarith, ?_⟩
  simp only [lpValue, lpTransform, if_true, lpTransformed, neg_lt_neg_iff, neg_neg]
  rw [if_neg (by linarith : ¬ 40 ≤ g), if_pos le_rfl]
  refine Real.log_lt_log (by norm_num) ?_
  rw [Real.lt_log_iff_exp_lt (by positivity)]
  rw [Real.log_lt_iff_lt_exp (by linarith)] at g1
  linarith

/-- The values of EI and of LCB in usual scales are in one branch. -/
example : SameBranch false (-3) 0 ∧ SameBranch true (-3) 5 ∧ ¬ SameBranch true (-41) 5 := by
  refine ⟨?_, ?_, ?_⟩ <;> simp [SameBranch] <;> norm_num

end GPyOpt.Props
