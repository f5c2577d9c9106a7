import Verif.Model.LocalPenalization
import Verif.Props.Acquisition
import Verif.Lemmas.Py
import Mathlib.Analysis.Calculus.MeanValue

/-!
# Local penalization (C62–C64, C81)
-/

namespace GPyOpt.Props

open Filter
open scoped Topology
open GPyOpt.Spec

variable {d : Nat}

/-! ## Derivatives -/

/-- The linear map with the coefficients `g`. -/
noncomputable def dotMap (g : Pt d) : Pt d →L[ℝ] ℝ := ∑ j, g j • ContinuousLinearMap.proj (R := ℝ) j

theorem dotMap_apply (g v : Pt d) : dotMap g v = ∑ j, g j * v j := by
  simp [dotMap]

theorem dotMap_ext {g h : Pt d} (e : ∀ v : Pt d, ∑ j, g j * v j = ∑ j, h j * v j) : g = h := by
  funext j
  have := e (Pi.single j 1)
  simpa [Pi.single_apply] using this

/-- `g` is the vector of partial derivatives of `f` at `x`. -/
def HasGradient (f : Pt d → ℝ) (x : Pt d) (g : Pt d) : Prop := IsGradientAt f x fun v => ∑ j, g j * v j

theorem HasGradient.hasFDerivAt {f : Pt d → ℝ} {x g : Pt d} (h : HasGradient f x g) :
    HasFDerivAt f (dotMap g) x := by
  obtain ⟨L, hL, e⟩ := h
  have : L = dotMap g := ContinuousLinearMap.ext fun v => by rw [e, dotMap_apply]
  rwa [← this]

theorem hasGradient_iff {f : Pt d → ℝ} {x g : Pt d} : HasGradient f x g ↔ HasFDerivAt f (dotMap g) x :=
  ⟨HasGradient.hasFDerivAt, fun h => ⟨_, h, fun v => dotMap_apply g v⟩⟩

theorem HasGradient.unique {f : Pt d → ℝ} {x g h : Pt d} (h1 : HasGradient f x g) (h2 : HasGradient f x h) :
    g = h := by
  have := h1.hasFDerivAt.unique h2.hasFDerivAt
  exact dotMap_ext fun v => by rw [← dotMap_apply, ← dotMap_apply, this]

theorem HasGradient.comp {f : Pt d → ℝ} {x g : Pt d} (h : HasGradient f x g) {F : ℝ → ℝ} {F' : ℝ}
    (hF : HasDerivAt F F' (f x)) : HasGradient (fun y => F (f y)) x (fun j => F' * g j) := by
  rw [hasGradient_iff]
  refine (hF.comp_hasFDerivAt x h.hasFDerivAt).congr_fderiv (ContinuousLinearMap.ext fun v => ?_)
  simp [dotMap_apply, Finset.mul_sum, mul_assoc]

theorem HasGradient.add {f f2 : Pt d → ℝ} {x g g2 : Pt d} (h : HasGradient f x g) (h2 : HasGradient f2 x g2) :
    HasGradient (fun y => f y + f2 y) x (fun j => g j + g2 j) := by
  rw [hasGradient_iff]
  refine (h.hasFDerivAt.add h2.hasFDerivAt).congr_fderiv (ContinuousLinearMap.ext fun v => ?_)
  simp [dotMap_apply, Finset.sum_add_distrib, add_mul]

theorem HasGradient.sum {ι : Type*} (l : List ι) {f : ι → Pt d → ℝ} {x : Pt d} {g : ι → Pt d}
    (h : ∀ a ∈ l, HasGradient (f a) x (g a)) :
    HasGradient (fun y => (l.map fun a => f a y).sum) x (fun j => (l.map fun a => g a j).sum) := by
  induction l with
  | nil =>
    rw [hasGradient_iff]
    refine (hasFDerivAt_const (0 : ℝ) x).congr_fderiv (ContinuousLinearMap.ext fun v => ?_)
    simp [dotMap_apply]
  | cons a l ih =>
    simp only [List.map_cons, List.sum_cons]
    exact (h a (by simp)).add (ih fun b hb => h b (by simp [hb]))

theorem HasGradient.congr {f f2 : Pt d → ℝ} {x g : Pt d} (h : HasGradient f x g) (e : ∀ᶠ y in 𝓝 x, f2 y = f y) :
    HasGradient f2 x g := by
  rw [hasGradient_iff] at h ⊢
  exact h.congr_of_eventuallyEq e

/-- The gradient of the distance to a centre. -/
theorem euclid_hasGradient (x x0 : Pt d) (h : euclid x x0 ≠ 0) :
    HasGradient (fun y => euclid y x0) x (fun j => (x j - x0 j) / euclid x x0) := by
  have hs : HasGradient (fun y => ∑ j, (y j - x0 j) ^ 2) x (fun j => 2 * (x j - x0 j)) := by
    rw [hasGradient_iff]
    have h1 : ∀ j ∈ Finset.univ, HasFDerivAt (fun y : Pt d => (y j - x0 j) ^ 2)
        ((2 * (x j - x0 j)) • (ContinuousLinearMap.proj j : Pt d →L[ℝ] ℝ)) x := by
      intro j _
      have hp : HasFDerivAt (fun y : Pt d => y j - x0 j) (ContinuousLinearMap.proj j : Pt d →L[ℝ] ℝ) x :=
        (hasFDerivAt_apply j x).sub_const _
      have h2 := (hasDerivAt_pow 2 (x j - x0 j)).comp_hasFDerivAt x hp
      refine h2.congr_fderiv ?_
      simp
    exact (HasFDerivAt.fun_sum h1)
  have hne : (∑ j, (x j - x0 j) ^ 2) ≠ 0 := by
    intro e
    exact h (by simp [euclid, e])
  have := hs.comp (Real.hasDerivAt_sqrt hne)
  have e : (fun j => 1 / (2 * √(∑ j, (x j - x0 j) ^ 2)) * (2 * (x j - x0 j)))
      = fun j => (x j - x0 j) / euclid x x0 := by
    funext j
    simp only [euclid]
    field_simp
  rw [e] at this
  exact this

/-- A penalizer is regular at `x`: `x` is not its centre, its scale is not zero and it is not so strong that the
code drops its gradient. -/
def _root_.GPyOpt.Hammer.Regular (h : Hammer d) (x : Pt d) : Prop :=
  euclid x h.x0 ≠ 0 ∧ h.s ≠ 0 ∧ 1 / 10 ^ 50 ≤ ncdf ((euclid x h.x0 - h.r) / h.s)

theorem dHammer_eq {h : Hammer d} {x : Pt d} (hr : h.Regular x) :
    dHammer h x = npdf ((euclid x h.x0 - h.r) / h.s)
      / (h.s * ncdf ((euclid x h.x0 - h.r) / h.s) * euclid x h.x0) := by
  obtain ⟨h1, h2, h3⟩ := hr
  simp only [dHammer, if_neg (not_lt.2 h3), npdf]
  generalize (euclid x h.x0 - h.r) / h.s = z
  rw [show -z ^ 2 / 2 = -(1 / 2) * z ^ 2 by ring]
  ring

theorem dHammer_ne_zero {h : Hammer d} {x : Pt d} (hr : h.Regular x) : dHammer h x ≠ 0 := by
  rw [dHammer_eq hr]
  exact div_ne_zero (npdf_pos _).ne' (mul_ne_zero (mul_ne_zero hr.2.1 (ncdf_pos _).ne') hr.1)

/-- The true gradient of a penalizer: the number used by the code times the difference to the centre. -/
theorem hammer_hasGradient {h : Hammer d} {x : Pt d} (hr : h.Regular x) :
    HasGradient (hammerValue h) x (fun j => dHammer h x * (x j - h.x0 j)) := by
  have h1 := euclid_hasGradient x h.x0 hr.1
  have hz : HasDerivAt (fun n : ℝ => (n - h.r) / h.s) (1 / h.s) (euclid x h.x0) :=
    ((hasDerivAt_id _).sub_const h.r).div_const h.s
  have h2 : HasDerivAt (fun n : ℝ => Real.log (ncdf ((n - h.r) / h.s)))
      (npdf ((euclid x h.x0 - h.r) / h.s) * (1 / h.s) / ncdf ((euclid x h.x0 - h.r) / h.s)) (euclid x h.x0) :=
    ((hasDerivAt_ncdf _).comp _ hz).log (ncdf_pos _).ne'
  have := h1.comp h2
  show HasGradient (fun y => Real.log (ncdf ((euclid y h.x0 - h.r) / h.s))) x _
  convert this using 2 with j
  rw [dHammer_eq hr]
  have := hr.1
  have := hr.2.1
  have := (ncdf_pos ((euclid x h.x0 - h.r) / h.s)).ne'
  field_simp

/-! ## C62 -/

/-- The transforms for which the gradient of the transformed acquisition is right: softplus below 40, where it
has no special case, and no transform at all. -/
def SmoothTransform (t : LPTransform) (acq : ℝ) : Prop := t = .other ∨ t = .softplus ∧ -acq < 40

theorem softplus_pos (g : ℝ) : 0 < Real.log (1 + Real.exp g) :=
  Real.log_pos (by have := Real.exp_pos g; linarith)

theorem softplus_deriv (g : ℝ) :
    HasDerivAt (fun g => Real.log (Real.log (1 + Real.exp g))) (lpScale .softplus g) g := by
  have h1 : HasDerivAt (fun g : ℝ => 1 + Real.exp g) (Real.exp g) g := (Real.hasDerivAt_exp g).const_add 1
  have hp : (1 + Real.exp g) ≠ 0 := by have := Real.exp_pos g; linarith
  have h2 := (h1.log hp).log (softplus_pos g).ne'
  refine h2.congr_deriv ?_
  simp only [lpScale, Real.exp_neg]
  have := (softplus_pos g).ne'
  have := (Real.exp_pos g).ne'
  field_simp
  ring

/-- **C62 (partial).** Without penalizers, i.e. for the first point of every batch, and with a smooth transform,
the reported gradient is the gradient of the reported value. -/
theorem C62_first_point_partial (t : LPTransform) (a : Pt d → ℝ) (x dacq : Pt d) (ha : HasGradient a x dacq)
    (ht : SmoothTransform t (a x)) :
    HasGradient (fun y => lpValue t (a y) none y) x (lpGrad t (a x) dacq none x) := by
  rcases ht with rfl | ⟨rfl, hlt⟩
  · refine (ha.comp (hasDerivAt_id (a x))).congr (Eventually.of_forall fun y => ?_)
    simp [lpValue, lpTransformed]
  · have h1 : HasDerivAt (fun c : ℝ => -Real.log (Real.log (1 + Real.exp (-c)))) (lpScale .softplus (-(a x)))
        (a x) := by
      have := ((softplus_deriv (-(a x))).comp (a x) (hasDerivAt_neg (a x))).neg
      refine this.congr_deriv ?_
      ring
    refine (ha.comp h1).congr ?_
    have hc : ContinuousAt a x := ha.hasFDerivAt.continuousAt
    filter_upwards [hc.neg.eventually_lt_const hlt] with y hy
    have hy' : ¬ 40 ≤ -a y := not_le.2 hy
    simp [lpValue, lpTransformed, hy']

/-- **C62.** The true gradient of the penalized acquisition, and the exact condition under which the reported
gradient equals it: the reported gradient lacks the factor `x - x0` of every penalizer. -/
theorem C62_gradient_iff_partial (t : LPTransform) (a : Pt d → ℝ) (x dacq : Pt d) (ha : HasGradient a x dacq)
    (ht : SmoothTransform t (a x)) (hs : List (Hammer d)) (hr : ∀ h ∈ hs, h.Regular x) :
    HasGradient (fun y => lpValue t (a y) (some hs) y) x
      (fun j => lpScale t (-(a x)) * dacq j - (hs.map fun h => dHammer h x * (x j - h.x0 j)).sum) ∧
    (HasGradient (fun y => lpValue t (a y) (some hs) y) x (lpGrad t (a x) dacq (some hs) x)
      ↔ ∀ j, (hs.map fun h => dHammer h x * (x j - h.x0 j - 1)).sum = 0) := by
  have h1 := C62_first_point_partial t a x dacq ha ht
  have h2 : HasGradient (fun y => (hs.map fun h => hammerValue h y).sum) x _ :=
    HasGradient.sum hs fun h hh => hammer_hasGradient (hr h hh)
  have h3 : HasGradient (fun y => lpValue t (a y) (some hs) y) x
      (fun j => lpScale t (-(a x)) * dacq j - (hs.map fun h => dHammer h x * (x j - h.x0 j)).sum) := by
    have h4 := h1.add (h2.comp (hasDerivAt_neg _))
    refine HasGradient.congr ?_ (Eventually.of_forall fun y => rfl) (f := fun y => lpValue t (a y) none y
      + -(hs.map fun h => hammerValue h y).sum)
    convert h4 using 1
    funext j
    simp only [lpGrad]
    ring
  refine ⟨h3, ?_⟩
  have e : ∀ j, (hs.map fun h => dHammer h x * (x j - h.x0 j - 1)).sum
      = (hs.map fun h => dHammer h x * (x j - h.x0 j)).sum - (hs.map fun h => dHammer h x).sum := by
    intro j
    clear h2 h3 hr
    induction hs with
    | nil => simp
    | cons h l ih => simp only [List.map_cons, List.sum_cons, ih]; ring
  constructor
  · intro h5 j
    have := congrFun (h3.unique h5) j
    simp only [lpGrad] at this
    rw [e]
    linarith
  · intro h5
    convert h3 using 1
    funext j
    have := h5 j
    rw [e] at this
    simp only [lpGrad]
    linarith

/-- C62 is false: with one penalizer (the second point of a batch) the reported gradient is wrong at every
location, except those exactly one unit away from the centre in all coordinates. -/
theorem C62_penalized_gradient_counterexample (t : LPTransform) (a : Pt d → ℝ) (x dacq : Pt d)
    (ha : HasGradient a x dacq) (ht : SmoothTransform t (a x)) (h : Hammer d) (hr : h.Regular x) (j : Fin d)
    (hj : x j - h.x0 j ≠ 1) :
    ¬ HasGradient (fun y => lpValue t (a y) (some [h]) y) x (lpGrad t (a x) dacq (some [h]) x) := by
  intro hg
  have := ((C62_gradient_iff_partial t a x dacq ha ht [h] (by simpa using hr)).2.1 hg) j
  simp only [List.map_cons, List.map_nil, List.sum_cons, List.sum_nil, add_zero, mul_eq_zero] at this
  rcases this with h1 | h1
  · exact dHammer_ne_zero hr h1
  · exact hj (by linarith)

/-- C62 is false also for the default transform: the gradient of `log(g + 1e-50)` is reported as that of `log g`
(a relative error of `1e-50 / g`). -/
theorem C62_default_transform_counterexample (a : Pt d → ℝ) (x dacq : Pt d) (ha : HasGradient a x dacq)
    (hpos : 0 < -(a x)) (j : Fin d) (hj : dacq j ≠ 0) :
    HasGradient (fun y => lpValue .none (a y) none y) x (fun j => 1 / (-(a x) + 1 / 10 ^ 50) * dacq j) ∧
    ¬ HasGradient (fun y => lpValue .none (a y) none y) x (lpGrad .none (a x) dacq none x) := by
  have hp : -(a x) + 1 / 10 ^ 50 ≠ 0 := by positivity
  have h1 : HasDerivAt (fun c : ℝ => -Real.log (-c + 1 / 10 ^ 50)) (1 / (-(a x) + 1 / 10 ^ 50)) (a x) := by
    have := (((hasDerivAt_neg (a x)).add_const (1 / 10 ^ 50 : ℝ)).log hp).neg
    refine this.congr_deriv ?_
    ring
  have h2 : HasGradient (fun y => lpValue .none (a y) none y) x (fun j => 1 / (-(a x) + 1 / 10 ^ 50) * dacq j) :=
    ha.comp h1
  refine ⟨h2, fun h3 => ?_⟩
  have := congrFun (h2.unique h3) j
  simp only [lpGrad, lpScale] at this
  have e := mul_right_cancel₀ hj this
  have e := inv_injective (by simpa only [one_div] using e)
  have : (0 : ℝ) < 1 / 10 ^ 50 := by positivity
  linarith

/-! ## C63 -/

theorem hammerValue_neg (h : Hammer d) (x : Pt d) : hammerValue h x < 0 :=
  Real.log_neg (ncdf_pos _) (ncdf_lt_one _)

/-- **C63.** Adding points to the batch raises the penalized acquisition (which is minimized), at every location
and for every model, Lipschitz constant and incumbent; strictly, if at least one point is added. A batch without
points is the same as no batch. -/
theorem C63_penalization_raises (t : LPTransform) (acq L Min : ℝ) (predict : Pt d → ℝ × ℝ) (x : Pt d)
    (X X' : List (Pt d)) (hX : X' ≠ []) :
    lpValue t acq (lpUpdateBatches (some X) L Min predict) x
        < lpValue t acq (lpUpdateBatches (some (X ++ X')) L Min predict) x ∧
      lpValue t acq (lpUpdateBatches (some []) L Min predict) x
        = lpValue t acq (lpUpdateBatches none L Min predict) x := by
  constructor
  · simp only [lpValue, lpUpdateBatches, Option.map_some, List.map_append, List.sum_append, List.map_map]
    have : (X'.map ((fun h => hammerValue h x) ∘ hammerPrecompute L Min predict)).sum < 0 := by
      have h := List.sum_lt_sum_of_ne_nil hX ((fun h => hammerValue h x) ∘ hammerPrecompute L Min predict)
        (fun _ => (0 : ℝ)) fun p _ => hammerValue_neg _ _
      simpa using h
    linarith
  · simp [lpValue, lpUpdateBatches]

/-! ## C64 -/

/-- **C64.** `estimate_L` returns at least `1e-7` for every model, and, if its optimizer does not return a value
worse than the one it started from, at least the norm of the gradient of the posterior mean at every sampled
location and every data point. -/
theorem C64_estimate_bounds (grad : Pt d → Pt d) (samples X : List (Pt d)) (minimize : (Pt d → ℝ) → Pt d → ℝ)
    (hne : samples ≠ []) :
    ∃ L, estimateL grad samples X minimize = .ok L ∧ 1 / 10 ^ 7 ≤ L ∧
      ((∀ x0, minimize (fun y => -(gradNorm (grad y))) x0 ≤ -(gradNorm (grad x0))) → ∀ x ∈ samples ++ X, gradNorm (grad x) ≤ L) := by
  have hne' : ((samples ++ X).map fun x => -(gradNorm (grad x))) ≠ [] := by simp [hne]
  obtain ⟨k, v, h1, h2, h3, h4⟩ := argmin_spec hne'
  rw [List.length_map] at h2
  have h5 : (samples ++ X)[k]? = some ((samples ++ X)[k]) := List.getElem?_eq_getElem h2
  rw [List.getElem?_map, h5, Option.map_some, Option.some_inj] at h3
  refine ⟨(if -minimize (fun x => -gradNorm (grad x)) (samples ++ X)[k] < 1 / 10 ^ 7 then 10
      else -minimize (fun x => -gradNorm (grad x)) (samples ++ X)[k]), ?_, ?_, ?_⟩
  · simp only [estimateL, h1, h5]
  · split
    · norm_num
    · linarith
  · intro hmin x hx
    have h6 := hmin ((samples ++ X)[k])
    obtain ⟨i, hi⟩ := List.getElem?_of_mem hx
    have h7 : v ≤ -(gradNorm (grad x)) := (h4 i _ (by rw [List.getElem?_map, hi, Option.map_some])).1
    split
    · linarith
    · linarith

/-- Cauchy–Schwarz. -/
theorem sum_mul_le_norms (g v : Pt d) : |∑ j, g j * v j| ≤ gradNorm g * √(∑ j, v j ^ 2) := by
  rw [gradNorm, ← Real.sqrt_mul (Finset.sum_nonneg fun j _ => mul_self_nonneg _)]
  refine Real.abs_le_sqrt ?_
  have := Finset.sum_mul_sq_le_sq_mul_sq Finset.univ g v
  simpa only [← sq] using this

/-- **C64.** If the optimizer of `estimate_L` finds the largest gradient norm over the box, the estimate is a
Lipschitz constant of the posterior mean over the box, and inside the exclusion ball of a penalizer centred in the
box the posterior mean stays above the incumbent `Min`. -/
theorem C64_lipschitz (m : Pt d → ℝ) (grad : Pt d → Pt d) (samples X : List (Pt d))
    (minimize : (Pt d → ℝ) → Pt d → ℝ) (lo hi : Pt d) (hne : samples ≠ [])
    (hgrad : ∀ x, HasGradient m x (grad x))
    (hmin : ∀ x0 x, (∀ j, lo j ≤ x j ∧ x j ≤ hi j) →
      minimize (fun y => -(gradNorm (grad y))) x0 ≤ -(gradNorm (grad x))) :
    ∃ L, estimateL grad samples X minimize = .ok L ∧ 0 < L ∧
      (∀ x y : Pt d, (∀ j, lo j ≤ x j ∧ x j ≤ hi j) → (∀ j, lo j ≤ y j ∧ y j ≤ hi j) →
        |m x - m y| ≤ L * euclid x y) ∧
      (∀ (Min : ℝ) (dev : Pt d → ℝ) (x0 x : Pt d), (∀ j, lo j ≤ x j ∧ x j ≤ hi j) →
        (∀ j, lo j ≤ x0 j ∧ x0 j ≤ hi j) →
        euclid x x0 < (hammerPrecompute L Min (fun y => (m y, dev y)) x0).r → Min < m x) := by
  obtain ⟨L, h1, h2, -⟩ := C64_estimate_bounds grad samples X minimize hne
  have hL : 0 < L := lt_of_lt_of_le (by norm_num) h2
  have hbound : ∀ x : Pt d, (∀ j, lo j ≤ x j ∧ x j ≤ hi j) → gradNorm (grad x) ≤ L := by
    intro x hx
    have hm := fun x0 => hmin x0 x hx
    simp only [estimateL] at h1
    split at h1
    · cases h1
    · split at h1
      · cases h1
      · rename_i x0 _
        have := hm x0
        cases h1
        split
        · linarith
        · linarith
  have hlip : ∀ x y : Pt d, (∀ j, lo j ≤ x j ∧ x j ≤ hi j) → (∀ j, lo j ≤ y j ∧ y j ≤ hi j) →
      |m x - m y| ≤ L * euclid x y := by
    intro x y hx hy
    have hd : ∀ t : ℝ, HasDerivAt (fun t : ℝ => y + t • (x - y)) (x - y) t := by
      intro t
      have := ((hasDerivAt_id t).smul_const (x - y)).const_add y
      simpa using this
    have hf : ∀ t ∈ Set.Icc (0 : ℝ) 1, HasDerivWithinAt (fun t : ℝ => m (y + t • (x - y)))
        (∑ j, grad (y + t • (x - y)) j * (x j - y j)) (Set.Icc 0 1) t := by
      intro t _
      have := (hgrad (y + t • (x - y))).hasFDerivAt.comp_hasDerivAt t (hd t)
      rw [dotMap_apply] at this
      exact this.hasDerivWithinAt
    have hb : ∀ t ∈ Set.Ico (0 : ℝ) 1, ‖∑ j, grad (y + t • (x - y)) j * (x j - y j)‖ ≤ L * euclid x y := by
      intro t ht
      have hin : ∀ j, lo j ≤ (y + t • (x - y)) j ∧ (y + t • (x - y)) j ≤ hi j := by
        intro j
        have e : (y + t • (x - y)) j = (1 - t) * y j + t * x j := by simp; ring
        rw [e]
        have := hx j
        have := hy j
        have := ht.1
        have := ht.2
        constructor <;> nlinarith
      refine (sum_mul_le_norms _ fun j => x j - y j).trans ?_
      exact mul_le_mul_of_nonneg_right (hbound _ hin) (Real.sqrt_nonneg _)
    have := norm_image_sub_le_of_norm_deriv_le_segment_01' hf hb
    simpa using this
  refine ⟨L, h1, hL, hlip, ?_⟩
  intro Min dev x0 x hx hx0 hr
  simp only [hammerPrecompute, lt_div_iff₀ hL] at hr
  have := hlip x x0 hx hx0
  have := (abs_le.1 this).1
  linarith

/-! ## C81 -/

/-- Probability that a location at distance `dist` of a centre with posterior mean `m` and deviation `s` lies
outside of the exclusion ball, whose radius is normal with mean `(m - Min) / L` and deviation `s / L`
(Gonzalez et al., 2016). -/
noncomputable def outsideProb (m s L Min dist : ℝ) : ℝ := probImprovement ((m - Min) / L) (s / L) dist

theorem outsideProb_eq (m s L Min dist : ℝ) (h : 0 < s / L) :
    outsideProb m s L Min dist = ncdf ((dist - (m - Min) / L) / (s / L)) := by
  rw [outsideProb, probImprovement, normalLaw, gaussian_prob _ _ _ h]

/-- **C81 (partial).** The penalizer is the log-probability to lie outside of an exclusion ball whose radius has
the square root of the posterior deviation in the place of the posterior deviation. -/
theorem C81_penalizer_partial (L Min m s : ℝ) (x x0 : Pt d) (hL : 0 < L) (hs : 1 / 10 ^ 16 ≤ s) :
    hammerValue (hammerPrecompute L Min (fun _ => (m, s)) x0) x
      = Real.log (outsideProb m √s L Min (euclid x x0)) := by
  have h0 : (0 : ℝ) < s := lt_of_lt_of_le (by norm_num) hs
  rw [outsideProb_eq _ _ _ _ _ (div_pos (Real.sqrt_pos.2 h0) hL)]
  simp only [hammerValue, hammerPrecompute, if_neg (not_lt.2 hs)]

/-- C81 is false: with a posterior deviation other than 1 the penalizer differs from the documented one, at every
location that is not exactly on the mean radius. -/
theorem C81_penalizer_counterexample (L Min m s : ℝ) (x x0 : Pt d) (hL : 0 < L) (hs : 1 / 10 ^ 16 ≤ s)
    (h1 : s ≠ 1) (hx : euclid x x0 ≠ (m - Min) / L) :
    hammerValue (hammerPrecompute L Min (fun _ => (m, s)) x0) x
      ≠ Real.log (outsideProb m s L Min (euclid x x0)) := by
  have h0 : (0 : ℝ) < s := lt_of_lt_of_le (by norm_num) hs
  have hsq : 0 < √s := Real.sqrt_pos.2 h0
  rw [C81_penalizer_partial L Min m s x x0 hL hs, outsideProb_eq _ _ _ _ _ (div_pos hsq hL),
    outsideProb_eq _ _ _ _ _ (div_pos h0 hL)]
  intro e
  have e2 := ncdf_strictMono.injective (Real.log_injOn_pos (ncdf_pos _) (ncdf_pos _) e)
  have hne : euclid x x0 - (m - Min) / L ≠ 0 := sub_ne_zero.2 hx
  rw [div_eq_div_iff (div_pos hsq hL).ne' (div_pos h0 hL).ne'] at e2
  have e3 := mul_left_cancel₀ hne e2
  have e4 : s = √s := by
    field_simp at e3
    exact e3
  have e5 : √s * √s = s := Real.mul_self_sqrt h0.le
  rw [← e4] at e5
  have : s = 1 := by
    have := mul_left_cancel₀ h0.ne' (e5.trans (mul_one s).symm)
    exact this
  exact h1 this

/-! ## Concrete cases -/

/-- A penalizer on the line centred at 0, seen from `x = 2`. -/
noncomputable def exHammer : Hammer 1 := { x0 := fun _ => 0, r := 1, s := 1 }

theorem exHammer_euclid : euclid (fun _ : Fin 1 => (2 : ℝ)) exHammer.x0 = 2 := by
  simp only [euclid, exHammer, Finset.univ_unique, Finset.sum_singleton, sub_zero]
  rw [Real.sqrt_sq (by norm_num)]

theorem ncdf_zero : ncdf 0 = 1 / 2 := by
  have h := integral_gaussian_Ioi 1
  simp only [neg_mul, one_mul, div_one] at h
  have hp : √Real.pi ≠ 0 := by positivity
  simp only [ncdf, erfc, neg_zero, zero_div, h]
  field_simp

theorem exHammer_regular : exHammer.Regular fun _ => 2 := by
  refine ⟨?_, ?_, ?_⟩
  · rw [exHammer_euclid]; norm_num
  · simp [exHammer]
  · rw [exHammer_euclid]
    have h1 : ncdf 0 < ncdf ((2 - exHammer.r) / exHammer.s) := ncdf_strictMono (by norm_num [exHammer])
    rw [ncdf_zero] at h1
    exact le_trans (by norm_num) h1.le

/-- The gradient reported for acquisition value `-x` (softplus) with that penalizer is wrong at `x = 2`. -/
example : ¬ HasGradient (fun y : Pt 1 => lpValue .softplus (-(y 0)) (some [exHammer]) y) (fun _ => 2)
    (lpGrad .softplus (-2) (fun _ => -1) (some [exHammer]) fun _ => 2) := by
  have ha : HasGradient (fun y : Pt 1 => -(y 0)) (fun _ => 2) (fun _ => -1) := by
    rw [hasGradient_iff]
    refine (hasFDerivAt_apply (0 : Fin 1) (fun _ : Fin 1 => (2 : ℝ))).neg.congr_fderiv ?_
    ext v
    simp [dotMap_apply]
  exact C62_penalized_gradient_counterexample .softplus (fun y : Pt 1 => -(y 0)) (fun _ => 2) (fun _ => -1) ha
    (Or.inr ⟨rfl, by norm_num⟩) exHammer exHammer_regular 0 (by norm_num [exHammer])

/-- The hypotheses of the Lipschitz theorem are met by the mean `3 x` on the unit interval with an exact
optimizer. -/
example : ∃ L, estimateL (d := 1) (fun _ _ => 3) [fun _ => 0] [] (fun _ _ => -3) = .ok L ∧ 0 < L ∧
    ∀ x y : Pt 1, (∀ j, 0 ≤ x j ∧ x j ≤ 1) → (∀ j, 0 ≤ y j ∧ y j ≤ 1) → |3 * x 0 - 3 * y 0| ≤ L * euclid x y := by
  have ha : ∀ x : Pt 1, HasGradient (fun y : Pt 1 => 3 * y 0) x (fun _ => 3) := by
    intro x
    rw [hasGradient_iff]
    refine ((hasFDerivAt_apply (0 : Fin 1) x).const_mul 3).congr_fderiv ?_
    ext v
    simp [dotMap_apply]
  have hn : gradNorm (fun _ : Fin 1 => (3 : ℝ)) = 3 := by
    simp only [gradNorm, Finset.univ_unique, Finset.sum_const, Finset.card_singleton, one_smul]
    exact Real.sqrt_mul_self (by norm_num)
  obtain ⟨L, h1, h2, h3, -⟩ := C64_lipschitz (fun y : Pt 1 => 3 * y 0) (fun _ _ => 3) [fun _ => 0] []
    (fun _ _ => -3) (fun _ => 0) (fun _ => 1) (by simp) ha (fun _ _ _ => by rw [hn])
  exact ⟨L, h1, h2, h3⟩

end GPyOpt.Props
