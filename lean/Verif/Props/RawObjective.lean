import Verif.Props.Records
import Verif.Model.RawObjective

/-! # C120: what the objective returns -/

namespace GPyOpt.Props

open GPyOpt

/-- The array contains one number. -/
def RawOut.IsNumber (r : RawOut) (y : ℚ) : Prop := r = .scalar y ∨ r = .vec [y] ∨ r = .mat 1 [[y]]

theorem isNumber_iff {r : RawOut} (h : r.WellShaped) (y : ℚ) : RawOut.IsNumber r y ↔ r.stack = .ok [y] := by
  unfold RawOut.IsNumber
  cases r with
  | scalar z => simp [RawOut.stack]
  | vec ys =>
    match ys with
    | [] => simp [RawOut.stack]
    | [z] => simp [RawOut.stack]
    | _ :: _ :: _ => simp [RawOut.stack]
  | mat cols rows =>
    simp only [RawOut.stack, reduceCtorEq, RawOut.mat.injEq, false_or]
    by_cases hc : cols = 1
    · subst hc
      simp only [if_true, true_and, Except.ok.injEq]
      constructor
      · rintro rfl; rfl
      · intro hf
        have hall : ∀ r ∈ rows, r.length = 1 := h
        match rows, hall, hf with
        | [], _, hf => simp at hf
        | [r], hall, hf => simpa using hf
        | r :: s :: rest, hall, hf =>
          have := congrArg List.length hf
          have h1 := hall r (by simp)
          have h2 := hall s (by simp)
          simp at this
          omega
    · simp [hc]

/-- C120 (partial: one number per location). Whether the function returns a number, an array with one entry or a 1×1 array
makes no difference: the evaluation is the one of a function that returns the number. -/
theorem C120_numbers_partial (obj : Nat → Vec → Py RawOut) (num : Nat → Vec → Py ℚ) (clock : Nat → ℚ)
    (hnum : ∀ k x, match num k x with
      | .error e => obj k x = .error e
      | .ok y => ∃ r, obj k x = .ok r ∧ RawOut.IsNumber r y) (xs : Mat) (w : World) :
    rawEval obj xs w.calls.length = (evalFunc num clock xs w).2.map Prod.fst := by
  induction xs generalizing w with
  | nil => rfl
  | cons x xs ih =>
    have h := hnum w.calls.length x
    simp only [rawEval, evalFunc]
    cases hn : num w.calls.length x with
    | error e => rw [hn] at h; simp only [h]; rfl
    | ok y =>
      rw [hn] at h
      obtain ⟨r, h1, h2⟩ := h
      have h3 : r.stack = .ok [y] := by rcases h2 with rfl | rfl | rfl <;> rfl
      simp only [h1, h3]
      have := ih { calls := w.calls ++ [(x, .ok y)], ticks := w.ticks + 2 }
      simp only [List.length_append, List.length_singleton] at this
      rw [this]
      rcases evalFunc num clock xs { calls := w.calls ++ [(x, .ok y)], ticks := w.ticks + 2 } with ⟨w', r'⟩
      cases r' with
      | error e => rfl
      | ok p => rfl

/-- C120. A result that is not a column is refused: several columns, or a one-dimensional array that does not have
one entry. -/
theorem C120_refused {obj : Nat → Vec → Py RawOut} {k : Nat} {x : Vec} {xs : Mat} {r : RawOut} (h : obj k x = .ok r)
    (hr : (∃ ys, r = .vec ys ∧ ys.length ≠ 1) ∨ ∃ c rows, r = .mat c rows ∧ c ≠ 1) :
    rawEval obj (x :: xs) k = .error .valueError := by
  rcases hr with ⟨ys, rfl, hl⟩ | ⟨c, rows, rfl, hc⟩
  · have : (RawOut.vec ys).stack = .error .valueError := by
      match ys, hl with
      | [], _ => rfl
      | _ :: _ :: _, _ => rfl
      | [y], hl => simp at hl
    simp only [rawEval, h, this]
  · simp only [rawEval, h, RawOut.stack, if_neg hc]

/-- C120 is false for columns: a function that returns two rows per location gives two outputs per location, without
an error, for all locations. -/
theorem C120_two_rows_counterexample (f g : Vec → ℚ) (xs : Mat) (k : Nat) :
    rawEval (fun _ x => .ok (.mat 1 [[f x], [g x]])) xs k = .ok (xs.flatMap fun x => [f x, g x]) := by
  induction xs generalizing k with
  | nil => rfl
  | cons x xs ih =>
    simp only [rawEval, RawOut.stack, if_true, ih, List.flatMap_cons]
    rfl

/-- C120. The reported optimum is then at a location where the function has another value (the minimum 1 is a value at
the location 1, not at 2), or the results raise. -/
theorem C120_wrong_optimum_counterexample :
    computeResults [[0], [1], [2]] [5, 6, 1, 7, 8, 9] = .ok ⟨[5, 5, 1, 1, 1, 1], [2], 1⟩ ∧
    computeResults [[0], [1]] [5, 6, 1, 7] = .error .indexError ∧
    rawEval (fun _ x => .ok (.mat 1 (if x = [1] then [[1], [7]] else if x = [0] then [[5], [6]] else [[8], [9]])))
      [[0], [1], [2]] 0 = .ok [5, 6, 1, 7, 8, 9] := by
  decide +kernel

/-- C120. With several processes, an output that is missing (an array without rows) is replaced by the output at
another location. -/
theorem C120_missing_output_counterexample :
    rawParallel (fun x => .ok (.mat 1 (if x = [2] then [] else [[x.sum]]))) 2 [[0], [1], [2], [3]] = .ok [0, 1, 0, 3] ∧
    rawEval (fun _ x => .ok (.mat 1 (if x = [2] then [] else [[x.sum]]))) [[0], [1], [2], [3]] 0 = .ok [0, 1, 3] := by
  decide +kernel

/-- The hypothesis of `C120_numbers_partial` for a function that returns different shapes. -/
example : ∀ (k : Nat) (x : Vec), match (fun (_ : Nat) (x : Vec) => (.ok x.sum : Py ℚ)) k x with
    | .error e => (fun (k : Nat) (x : Vec) => (.ok (if k % 2 = 0 then .scalar x.sum else .mat 1 [[x.sum]]) : Py RawOut)) k x =
        .error e
    | .ok y => ∃ r, (fun (k : Nat) (x : Vec) =>
        (.ok (if k % 2 = 0 then .scalar x.sum else .mat 1 [[x.sum]]) : Py RawOut)) k x = .ok r ∧ RawOut.IsNumber r y := by
  intro k x
  refine ⟨_, rfl, ?_⟩
  split_ifs
  · exact .inl rfl
  · exact .inr (.inr rfl)

end GPyOpt.Props
