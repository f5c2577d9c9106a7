import Verif.Model.LPSpecial
import Verif.Props.LocalPenalization

/-!
# Local penalization with `inf` and `nan` (C169)
-/

namespace GPyOpt.Props

open GPyOpt

variable {d : Nat}

theorem xExp_fin {R : ExpRange} {x : ℝ} (h1 : -745 ≤ x) (h2 : x ≤ 709) : xExp R x = .fin (Real.exp x) := by
  have a := R.lo_le
  have b := R.hi_ge
  rw [xExp, if_neg (by linarith), if_neg (by linarith)]

theorem xExp_zero {R : ExpRange} {x : ℝ} (h : x < -746) : xExp R x = .fin 0 := by
  have a := R.lo_ge
  rw [xExp, if_pos (by linarith)]

theorem xExp_inf {R : ExpRange} {x : ℝ} (h : 710 < x) : xExp R x = .pinf := by
  have a := R.hi_le
  have b := R.lo_le
  rw [xExp, if_neg (by linarith), if_pos (by linarith)]

theorem xLog_pos {x : ℝ} (h : 0 < x) : XR.log (.fin x) = .fin (Real.log x) := by
  rw [XR.log, if_neg h.ne', if_neg (by linarith)]

theorem xInv_ne {x : ℝ} (h : x ≠ 0) : XR.inv (.fin x) = .fin (1 / x) := by
  rw [XR.inv, if_neg h]

theorem scaleInf_pos {x : ℝ} (h : 0 < x) : XR.scaleInf true x = .pinf := by
  rw [XR.scaleInf, if_neg h.ne', if_pos (by simp [h])]

/-- The values are numbers, and those of the real model, as long as the exponential of the lower confidence bound does not
underflow and the improvement is not negative. -/
theorem C169_values (R : ExpRange) (t : LPTransform) (acq : ℝ) (batch : Option (List (Hammer d))) (x : Pt d)
    (hs : t = .softplus → acq ≤ 745) (hn : t = .none → acq ≤ 0) :
    xLpValue R t acq batch x = .fin (lpValue t acq batch x) := by
  have key : xTransformed R t (-acq) = .fin (lpTransformed t (-acq)) := by
    cases t with
    | softplus =>
      have h := hs rfl
      by_cases h40 : 40 ≤ -acq
      · simp only [xTransformed, lpTransformed, if_pos h40]
        exact xLog_pos (by linarith)
      · simp only [xTransformed, lpTransformed, if_neg h40]
        rw [xExp_fin (by linarith) (by linarith)]
        exact xLog_pos (softplus_pos _)
    | none =>
      have h := hn rfl
      simp only [xTransformed, lpTransformed]
      exact xLog_pos (by have : (0 : ℝ) < 1 / 10 ^ 50 := by positivity
                         linarith)
    | other => rfl
  cases batch <;> simp [xLpValue, lpValue, key, XR.neg, XR.add]

theorem xScale_fin (R : ExpRange) (t : LPTransform) (acq : ℝ) (hs : t = .softplus → |acq| ≤ 709)
    (hn : t = .none → acq < 0) : xScale R t (-acq) = .fin (lpScale t (-acq)) := by
  cases t with
  | softplus =>
    obtain ⟨h1, h2⟩ := abs_le.mp (hs rfl)
    simp only [xScale, lpScale]
    rw [xExp_fin (by linarith) (by linarith), xExp_fin (by linarith) (by linarith)]
    exact xInv_ne (mul_pos (softplus_pos _) (by positivity)).ne'
  | none => exact xInv_ne (by linarith [hn rfl])
  | other => rfl

theorem xDHammer_fin {h : Hammer d} {x : Pt d} (hx : euclid x h.x0 ≠ 0) : xDHammer h x = .fin (dHammer h x) := by
  simp only [xDHammer, dHammer]
  split_ifs
  · rfl
  · rw [xInv_ne hx, XR.mul]
    congr 1
    ring

theorem xSum_fin (l : List (Hammer d)) (x : Pt d) (h : ∀ a ∈ l, euclid x a.x0 ≠ 0) :
    xSum (l.map fun a => xDHammer a x) = .fin (l.map fun a => dHammer a x).sum := by
  induction l with
  | nil => rfl
  | cons a l ih =>
    simp only [List.map_cons, xSum, List.sum_cons]
    rw [ih fun b hb => h b (List.mem_cons_of_mem a hb), xDHammer_fin (h a List.mem_cons_self), XR.add]

/-- The gradients are numbers, and those of the real model, in the range in which no exponential underflows or overflows, where
the improvement is positive and away from the points of the batch. -/
theorem C169_gradients_partial (R : ExpRange) (t : LPTransform) (acq : ℝ) (dacq : Pt d)
    (batch : Option (List (Hammer d))) (x : Pt d) (j : Fin d) (hs : t = .softplus → |acq| ≤ 709)
    (hn : t = .none → acq < 0) (hb : ∀ hs, batch = some hs → ∀ h ∈ hs, euclid x h.x0 ≠ 0) :
    xLpGrad R t acq dacq batch x j = .fin (lpGrad t acq dacq batch x j) := by
  cases batch with
  | none => simp only [xLpGrad, lpGrad, xScale_fin R t acq hs hn, XR.mul]
  | some l =>
    simp only [xLpGrad, lpGrad, xScale_fin R t acq hs hn, xSum_fin l x (hb l rfl), XR.mul, XR.neg, XR.add]
    congr 1

theorem xScale_underflow (R : ExpRange) {acq : ℝ} (h : 746 < acq) : xScale R .softplus (-acq) = .nan := by
  simp only [xScale]
  rw [xExp_zero (by linarith), xExp_inf (by linarith)]
  simp [XR.log1p, XR.add, XR.mul, XR.scaleInf, XR.inv]

theorem xLpValue_underflow (R : ExpRange) {acq : ℝ} (h : 746 < acq) (batch : Option (List (Hammer d))) (x : Pt d) :
    xLpValue R .softplus acq batch x = .pinf := by
  have k : xTransformed R .softplus (-acq) = .ninf := by
    simp only [xTransformed]
    rw [if_neg (by linarith), xExp_zero (by linarith)]
    simp [XR.log1p, XR.log]
  cases batch <;> simp [xLpValue, k, XR.neg, XR.add]

/-- For a lower confidence bound above 746 the penalized acquisition is `inf` and every entry of its gradient `nan`, at every
location, for every batch and every gradient of the bound. -/
theorem C169_underflow_counterexample (R : ExpRange) (acq : ℝ) (h : 746 < acq) (dacq : Pt d)
    (batch : Option (List (Hammer d))) (x : Pt d) (j : Fin d) :
    xLpValue R .softplus acq batch x = .pinf ∧ xLpGrad R .softplus acq dacq batch x j = .nan := by
  refine ⟨xLpValue_underflow R h batch x, ?_⟩
  cases batch <;> simp [xLpGrad, xScale_underflow R h, XR.mul, XR.add]

/-- So for two models, both of which predict large outputs, the scores of any list of candidates are the same: the model plays
no part in the choice of the candidates, and neither does the batch. -/
theorem C169_uninformative_counterexample (R : ExpRange) (w : ℝ) (predict predict' : Pt d → ℝ × ℝ)
    (batch batch' : Option (List (Hammer d))) (candidates : List (Pt d))
    (h : ∀ x ∈ candidates, 746 < (predict x).1 - w * (predict x).2 ∧ 746 < (predict' x).1 - w * (predict' x).2) :
    candidates.map (fun x => xLpValue R .softplus (weightedAcq (lcbValue w (predict x).1 (predict x).2) 1 1) batch x)
      = candidates.map fun x =>
          xLpValue R .softplus (weightedAcq (lcbValue w (predict' x).1 (predict' x).2) 1 1) batch' x := by
  have key : ∀ (m s : ℝ) b x, 746 < m - w * s →
      xLpValue (d := d) R .softplus (weightedAcq (lcbValue w m s) 1 1) b x = .pinf := by
    intro m s b x hm
    have e : weightedAcq (lcbValue w m s) 1 1 = m - w * s := by
      simp only [weightedAcq, lcbValue]; ring
    rw [e]
    exact xLpValue_underflow R hm b x
  refine List.map_congr_left fun x hx => ?_
  rw [key _ _ _ _ (h x hx).1, key _ _ _ _ (h x hx).2]

/-- For a lower confidence bound below −710, or between 710 and 745, the value is a number and its derivative with respect to the
bound is not zero, but the gradient reported for the first point of a batch is zero whatever the gradient of the bound. -/
theorem C169_flat_counterexample (R : ExpRange) (acq : ℝ) (h : 710 < |acq|) (h2 : acq ≤ 745) (dacq x : Pt d) (j : Fin d) :
    xLpValue R .softplus acq none x = .fin (lpValue .softplus acq none x) ∧
      (∃ D ≠ 0, HasDerivAt (fun a => lpValue .softplus a none x) D acq) ∧
      xLpGrad R .softplus acq dacq none x j = .fin 0 := by
  refine ⟨C169_values R _ acq none x (fun _ => h2) (by simp), ?_, ?_⟩
  · rcases lt_abs.mp h with h | h
    · refine ⟨_, ?_, ((softplus_deriv (-acq)).comp acq (hasDerivAt_neg acq)).neg.congr_of_eventuallyEq ?_⟩
      · have h1 := softplus_pos (-acq)
        have h2 : 0 < lpScale .softplus (-acq) := by
          simp only [lpScale]
          positivity
        simpa using h2.ne'
      · filter_upwards [lt_mem_nhds (show (0 : ℝ) < acq by linarith)] with a ha
        simp only [lpValue, lpTransformed]
        rw [if_neg (by linarith)]
        rfl
    · refine ⟨-(-acq)⁻¹ * -1, ?_, ?_⟩
      · have : (0:ℝ) < (-acq)⁻¹ := inv_pos.mpr (by linarith)
        intro e
        linarith
      · have := (((Real.hasDerivAt_log (x := -acq) (by linarith)).comp acq (hasDerivAt_neg acq)).neg)
        refine (this.congr_of_eventuallyEq ?_).congr_deriv (by ring)
        filter_upwards [gt_mem_nhds (show acq < (-41 : ℝ) by linarith)] with a ha
        simp only [lpValue, lpTransformed]
        rw [if_pos (by linarith)]
        rfl
  · have k : xScale R .softplus (-acq) = .fin 0 := by
      simp only [xScale]
      rcases lt_abs.mp h with h | h
      · rw [xExp_fin (by linarith) (by linarith), xExp_inf (by linarith)]
        simp only [XR.log1p, XR.add, XR.mul]
        rw [scaleInf_pos (softplus_pos _), XR.inv]
      · rw [xExp_inf (x := -acq) (by linarith)]
        by_cases hz : -(-acq) < R.lo
        · rw [xExp, if_pos hz]
          simp only [XR.log1p, XR.add, XR.mul]
          rw [scaleInf_pos (by norm_num), XR.inv]
        · rw [xExp, if_neg hz, if_neg (by have := R.hi_ge; linarith)]
          simp only [XR.log1p, XR.add, XR.mul]
          rw [scaleInf_pos (by positivity), XR.inv]
    simp [xLpGrad, k, XR.mul]

/-- The entry of a penalizer whose centre is the location itself is `inf`, unless the location is far inside the ball. -/
theorem xDHammer_centre {h : Hammer d} {x : Pt d} (hx : euclid x h.x0 = 0) (hs : 0 < h.s)
    (hc : 1 / 10 ^ 50 ≤ ncdf (-h.r / h.s)) : xDHammer h x = .pinf := by
  simp only [xDHammer, hx, zero_sub]
  rw [if_neg (not_lt.mpr hc)]
  have hp := ncdf_pos (-h.r / h.s)
  simp only [XR.inv, if_true, XR.mul]
  exact scaleInf_pos (by positivity)

theorem xDHammer_cases {h : Hammer d} (x : Pt d) (hs : 0 < h.s) :
    xDHammer h x = .pinf ∨ ∃ y, xDHammer h x = .fin y := by
  by_cases hx : euclid x h.x0 = 0
  · by_cases hc : 1 / 10 ^ 50 ≤ ncdf (-h.r / h.s)
    · exact Or.inl (xDHammer_centre hx hs hc)
    · refine Or.inr ⟨0, ?_⟩
      simp only [xDHammer, hx, zero_sub]
      rw [if_pos (not_le.mp hc)]
  · exact Or.inr ⟨_, xDHammer_fin hx⟩

theorem xSum_cases (l : List (Hammer d)) (x : Pt d) (hs : ∀ h ∈ l, 0 < h.s) :
    (xSum (l.map fun a => xDHammer a x) = .pinf ∨ ∃ y, xSum (l.map fun a => xDHammer a x) = .fin y) ∧
      ((∃ h ∈ l, xDHammer h x = .pinf) → xSum (l.map fun a => xDHammer a x) = .pinf) := by
  induction l with
  | nil => exact ⟨Or.inr ⟨0, rfl⟩, by simp⟩
  | cons a l ih =>
    obtain ⟨i1, i2⟩ := ih fun h hh => hs h (List.mem_cons_of_mem a hh)
    simp only [List.map_cons, xSum]
    rcases xDHammer_cases x (hs a List.mem_cons_self) with e | ⟨y, e⟩
    · rw [e]
      rcases i1 with i | ⟨z, i⟩ <;> rw [i] <;> simp [XR.add]
    · rw [e]
      refine ⟨?_, fun ⟨h, hh, eh⟩ => ?_⟩
      · rcases i1 with i | ⟨z, i⟩ <;> rw [i] <;> simp [XR.add]
      · rcases List.mem_cons.mp hh with rfl | hh
        · rw [e] at eh
          cases eh
        · rw [i2 ⟨h, hh, eh⟩]
          rfl

/-- Where the improvement is zero (it underflows, or the location is infeasible) the value is a number but the gradient is not;
it is `nan` where the gradient of the improvement is zero. -/
theorem C169_zero_counterexample (R : ExpRange) (dacq : Pt d) (l : List (Hammer d)) (x : Pt d) (j : Fin d)
    (hs : ∀ h ∈ l, 0 < h.s) :
    (∀ batch : Option (List (Hammer d)), (xLpValue R .none 0 batch x).Finite) ∧
      ¬ (xLpGrad R .none 0 dacq none x j).Finite ∧ ¬ (xLpGrad R .none 0 dacq (some l) x j).Finite ∧
      (dacq j = 0 → xLpGrad R .none 0 dacq none x j = .nan ∧ xLpGrad R .none 0 dacq (some l) x j = .nan) := by
  have k : xScale R .none 0 = .pinf := by simp [xScale, XR.inv]
  refine ⟨fun batch => ?_, ?_, ?_, fun h0 => ?_⟩
  · rw [C169_values R .none 0 batch x (by simp) (by simp)]
    trivial
  · simp only [xLpGrad, neg_zero, k, XR.mul, XR.scaleInf]
    split_ifs <;> simp [XR.Finite]
  · simp only [xLpGrad, neg_zero, k, XR.mul, XR.scaleInf]
    rcases (xSum_cases l x hs).1 with i | ⟨z, i⟩ <;> rw [i] <;> split_ifs <;> simp [XR.add, XR.neg, XR.Finite]
  · simp [xLpGrad, k, XR.mul, XR.scaleInf, h0, XR.add]

/-- At a location outside the constraints the gradient is `nan`, for every acquisition that is not transformed. -/
theorem C169_infeasible_counterexample (R : ExpRange) (f c : ℝ) (df dc x : Pt d)
    (batch : Option (List (Hammer d))) (j : Fin d) :
    xLpGrad R .none (weightedAcq f 0 c) (fun i => (weightedAcqGrad f (df i) 0 c (dc i)).2) batch x j = .nan := by
  have e : weightedAcq f 0 c = 0 := by simp [weightedAcq]
  have k : xScale R .none 0 = .pinf := by simp [xScale, XR.inv]
  rw [e]
  cases batch <;> simp [xLpGrad, k, XR.mul, XR.scaleInf, weightedAcqGrad, XR.add]

/-- At a point of the batch, which over discrete variables is an ordinary candidate, the gradient is not a number, unless the
point is far inside its own exclusion ball. -/
theorem C169_centre_counterexample (R : ExpRange) (t : LPTransform) (acq : ℝ) (dacq : Pt d) (X : List (Pt d))
    (L Min : ℝ) (hL : 0 < L) (predict : Pt d → ℝ × ℝ) (x : Pt d) (hx : x ∈ X) (j : Fin d)
    (hc : 1 / 10 ^ 50 ≤ ncdf (-(hammerPrecompute L Min predict x).r / (hammerPrecompute L Min predict x).s)) :
    ¬ (xLpGrad R t acq dacq (lpUpdateBatches (some X) L Min predict) x j).Finite := by
  have hpos : ∀ a, 0 < (hammerPrecompute L Min predict a).s := by
    intro a
    simp only [hammerPrecompute]
    refine div_pos (Real.sqrt_pos.mpr ?_) hL
    split_ifs with h
    · positivity
    · exact lt_of_lt_of_le (by positivity) (not_lt.mp h)
  have hs : ∀ h ∈ X.map (hammerPrecompute L Min predict), 0 < h.s := by
    intro h hh
    obtain ⟨a, _, rfl⟩ := List.mem_map.mp hh
    exact hpos a
  have hsum := (xSum_cases _ x hs).2 ⟨_, List.mem_map_of_mem hx, xDHammer_centre
    (by simp [hammerPrecompute, euclid]) (hpos x) hc⟩
  simp only [lpUpdateBatches, Option.map_some, xLpGrad]
  rw [hsum]
  rcases XR.mul (xScale R t (-acq)) (.fin (dacq j)) with _ | _ | _ | y <;> simp [XR.neg, XR.add, XR.Finite]

/-! ## The hypotheses can be met -/

/-- The range of double precision, to three decimals. -/
noncomputable def exExpRange : ExpRange :=
  ⟨-745133 / 1000, 709782 / 1000, by norm_num, by norm_num, by norm_num, by norm_num⟩

/-- With outputs around 1000 and deviations around 10 the weight 2 leaves the bound far above 746. -/
example : xLpValue exExpRange .softplus (weightedAcq (lcbValue 2 1000 10) 1 1) none (fun _ : Fin 1 => 0) = .pinf :=
  (C169_underflow_counterexample exExpRange _ (by simp only [weightedAcq, lcbValue]; norm_num) 0 none _ 0).1

example : xLpGrad exExpRange .softplus (-1000) (fun _ => 1) none (fun _ : Fin 1 => 0) 0 = .fin 0 :=
  (C169_flat_counterexample exExpRange (-1000) (by norm_num) (by norm_num) _ _ 0).2.2

example : xLpGrad exExpRange .none (-1) (fun _ => 1) (some [exHammer]) (fun _ => 2) 0
    = .fin (lpGrad .none (-1) (fun _ => 1) (some [exHammer]) (fun _ => 2) 0) := by
  refine C169_gradients_partial exExpRange _ _ _ _ _ 0 (by simp) (by norm_num) fun hs e h hh => ?_
  obtain rfl := Option.some.inj e
  obtain rfl := List.mem_singleton.mp hh
  rw [exHammer_euclid]
  norm_num

/-- A point of the batch with the mean at the incumbent. -/
example : ¬ (xLpGrad exExpRange .other 0 0 (lpUpdateBatches (some [fun _ : Fin 1 => 3]) 1 0 fun _ => (0, 1)) (fun _ => 3) 0).Finite := by
  refine C169_centre_counterexample exExpRange _ _ _ _ 1 0 one_pos _ _ (by simp) 0 ?_
  have e : -(hammerPrecompute 1 0 (fun _ : Pt 1 => ((0 : ℝ), (1 : ℝ))) fun _ => 3).r
      / (hammerPrecompute 1 0 (fun _ : Pt 1 => ((0 : ℝ), (1 : ℝ))) fun _ => 3).s = 0 := by
    simp [hammerPrecompute]
  rw [e, ncdf_zero]
  norm_num

end GPyOpt.Props
