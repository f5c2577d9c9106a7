import Verif.Model.Interface
import Verif.Lemmas.Py
import Verif.Props.Loop

/-!
# C67, C74, C79: output schedule, driver, logged incumbent
-/

namespace GPyOpt

theorem appendIters_fst (savers : List (Int × Int)) (f : Bool) :
    (appendIter savers f).1.map Prod.fst = savers.map Prod.fst := by
  simp [appendIter, Function.comp_def]

/-- The clock of a data saver with positive interval `k` after `n` iterations that were not final. -/
theorem saverStep_pos {k : Int} (hk : 0 < k) (n : Nat) (final : Bool) :
    saverStep k (k - (n : Int) % k) final =
      (k - ((n + if final then 0 else 1 : Nat) : Int) % k,
        !final && decide (k ∣ ((n + 1 : Nat) : Int))) := by
  have h1 := Int.emod_nonneg (n : Int) hk.ne'
  have h2 := Int.emod_lt_of_pos (n : Int) hk
  cases final with
  | true =>
    have h3 : ¬ (k - (n : Int) % k = -1) := by omega
    have h4 : ¬ (k - (n : Int) % k = 0) := by omega
    simp [saverStep, h3, h4]
  | false =>
    have h3 : k - (n : Int) % k > 0 := by omega
    simp only [saverStep, h3, if_true, Bool.false_eq_true, if_false, Bool.not_false, Bool.true_and]
    by_cases hd : k ∣ ((n + 1 : Nat) : Int)
    · have h5 : ((n + 1 : Nat) : Int) % k = 0 := Int.emod_eq_zero_of_dvd hd
      have h6 : (n : Int) % k = k - 1 := by
        obtain ⟨c, hc⟩ := hd
        have : (n : Int) = k - 1 + k * (c - 1) := by push_cast at hc; linarith
        rw [this, Int.add_mul_emod_self_left]
        exact Int.emod_eq_of_lt (by omega) (by omega)
      push_cast at h5 hd
      simp [h6, h5, hd]
    · have h5 : ((n + 1 : Nat) : Int) % k = (n : Int) % k + 1 := by
        have hne : (n : Int) % k + 1 ≠ k := by
          intro hc
          apply hd
          have := Int.emod_add_mul_ediv (n : Int) k
          exact ⟨(n : Int) / k + 1, by push_cast; linarith⟩
        push_cast
        rw [← Int.emod_add_emod]
        exact Int.emod_eq_of_lt (by omega) (by omega)
      have h6 : ¬ (k - (n : Int) % k - 1 = 0) := by
        intro hc
        apply hd
        have := Int.emod_add_mul_ediv (n : Int) k
        exact ⟨(n : Int) / k + 1, by push_cast; linarith⟩
      simp only [h6, if_false, h5, hd, decide_false]
      congr 1
      omega

theorem saverStep_final (final : Bool) : saverStep (-1) (-1) final = (-1, final) := by
  cases final <;> simp [saverStep]

/-- State of the data savers after some iterations, `n` of which were not final. -/
def SaverInv (n : Nat) (savers : List (Int × Int)) : Prop :=
  ∀ s ∈ savers, (0 < s.1 ∧ s.2 = s.1 - (n : Int) % s.1) ∨ (s.1 = -1 ∧ s.2 = -1)

theorem saverInv_step {n : Nat} {savers : List (Int × Int)} (h : SaverInv n savers) (f : Bool) :
    SaverInv (n + if f then 0 else 1) (appendIter savers f).1 := by
  intro s hs
  simp only [appendIter, List.mem_map] at hs
  obtain ⟨s0, hs0, rfl⟩ := hs
  rcases h s0 hs0 with ⟨h1, h2⟩ | ⟨h1, h2⟩
  · left
    refine ⟨h1, ?_⟩
    rw [h2, saverStep_pos h1]
  · right
    simp [h1, h2, saverStep_final]

theorem appendIters_spec (fs : List Bool) : ∀ (n : Nat) (savers : List (Int × Int)), SaverInv n savers →
    ∀ (t j : Nat) (k : Int) (f : Bool), fs[t]? = some f → (savers.map Prod.fst)[j]? = some k →
    ∃ row, (appendIters savers fs)[t]? = some row ∧ row[j]? = some
      (decide ((0 < k ∧ f = false ∧ k ∣ ((n + (fs.take (t + 1)).count false : Nat) : Int)) ∨
        (k = -1 ∧ f = true))) := by
  induction fs with
  | nil => intro n savers _ t j k f h; simp at h
  | cons f0 fs ih =>
    intro n savers hinv t j k f ht hj
    cases t with
    | zero =>
      simp only [List.getElem?_cons_zero, Option.some.injEq] at ht
      subst ht
      refine ⟨_, by rw [appendIters]; rfl, ?_⟩
      simp only [List.getElem?_map, Option.map_eq_some_iff] at hj
      obtain ⟨s, hs, rfl⟩ := hj
      simp only [appendIter, List.getElem?_map, hs, Option.map_some, Option.some.injEq]
      rcases hinv s (List.mem_of_getElem? hs) with ⟨h1, h2⟩ | ⟨h1, h2⟩
      · rw [h2, saverStep_pos h1]
        have h3 : ¬ s.1 = -1 := by omega
        cases f0 <;> simp [h1, h3]
      · rw [h1, h2, saverStep_final]
        cases f0 <;> simp
    | succ t =>
      obtain ⟨row, hr1, hr2⟩ := ih _ _ (saverInv_step hinv f0) t j k f (by simpa using ht)
        (by rw [appendIters_fst]; exact hj)
      refine ⟨row, by rw [appendIters]; simpa using hr1, ?_⟩
      rw [hr2]
      have : n + ((f0 :: fs).take (t + 1 + 1)).count false
          = n + (if f0 then 0 else 1) + (fs.take (t + 1)).count false := by
        cases f0 <;> simp; omega
      rw [this]

theorem appendIters_length (savers : List (Int × Int)) (fs : List Bool) :
    (appendIters savers fs).length = fs.length := by
  induction fs generalizing savers with
  | nil => rfl
  | cons f fs ih => simp [appendIters, ih]

namespace Props

/-- **C67.** Feed any sequence of iterations (`true`: final) to an output engine with data savers of any
accepted intervals. A data saver with interval `k > 0` saves exactly at those non-final iterations where
the number of non-final iterations so far is a multiple of `k`; one with interval `-1` saves exactly at
the final iterations. Intervals are accepted exactly if they are positive or `-1`. -/
theorem C67_output_schedule (intervals : List Int) (finals : List Bool)
    (hint : ∀ k ∈ intervals, dataSaverInit k = .ok k) (t j : Nat) (k : Int) (final : Bool)
    (ht : finals[t]? = some final) (hj : intervals[j]? = some k) :
    ∃ row, (appendIters (outputInit intervals) finals)[t]? = some row ∧
      row[j]? = some (decide ((0 < k ∧ final = false ∧ k ∣ (((finals.take (t + 1)).count false : Nat) : Int)) ∨
        (k = -1 ∧ final = true))) := by
  have hinv : SaverInv 0 (outputInit intervals) := by
    intro s hs
    simp only [outputInit, List.mem_map] at hs
    obtain ⟨k, hk, rfl⟩ := hs
    have := hint k hk
    unfold dataSaverInit at this
    split at this
    · rename_i h
      rcases h with h | h
      · left; exact ⟨h, by simp⟩
      · right; exact ⟨h, h⟩
    · simp at this
  have := appendIters_spec finals 0 _ hinv t j k final ht
    (by simpa [outputInit, Function.comp_def] using hj)
  simpa using this

theorem C67_intervals (k : Int) : dataSaverInit k = .ok k ↔ 0 < k ∨ k = -1 := by
  unfold dataSaverInit
  split <;> simp_all

/-- Two savers (every second iteration; at the end) and five iterations, the last one final. -/
example : appendIters (outputInit [2, -1]) [false, false, false, false, true]
    = [[false, false], [true, false], [false, false], [true, false], [false, true]] := by decide +kernel

example : ∀ k ∈ [2, -1], dataSaverInit k = .ok k := by decide +kernel

/-- **C79.** The row the logger writes contains the number and the time of the last iteration, the minimum
of all outputs appended so far, and the location with this output (the earliest such), provided that
every appended block has as many locations as outputs. It is written unless there are no data. -/
theorem C79_logged_incumbent (iters : List Nat) (times : Vec) (Xs : List Mat) (Ys : List Vec)
    (hlen : List.Forall₂ (fun (X : Mat) (Y : Vec) => X.length = Y.length) Xs Ys)
    (hne : Ys.flatten ≠ []) (n : Nat) (t : ℚ) (hn : iters.getLast? = some n) (ht : times.getLast? = some t) :
    ∃ i y x, loggerRow iters times Xs Ys = .ok (n, t, y, x) ∧ Ys.flatten[i]? = some y ∧
      Xs.flatten[i]? = some x ∧ (∀ (j : Nat) (y' : ℚ), Ys.flatten[j]? = some y' → y ≤ y' ∧ (j < i → y < y')) := by
  obtain ⟨i, y, h1, h2, h3, h4⟩ := argmin_spec hne
  have hl : Xs.flatten.length = Ys.flatten.length := by
    clear h1 h2 h3 h4 hne
    induction hlen with
    | nil => rfl
    | cons h _ ih => simp [h] at ih ⊢; omega
  have hx : Xs.flatten[i]? = some (Xs.flatten[i]'(by omega)) := List.getElem?_eq_getElem _
  refine ⟨i, y, _, ?_, h3, hx, h4⟩
  simp [loggerRow, h1, npGet, h3, hx, hn, ht]

example : loggerRow [1, 2] [3, 4] [[[0], [1]], [[2]]] [[5, 2], [3]] = .ok (2, 4, 2, [1]) := by decide +kernel

/-! ## Driver -/

/-- **C74, negation.** `BODriver.run` never completes: whatever the configuration and the components are,
it raises; if the space is valid it raises `TypeError`, because the objective is created with a keyword
that its constructor does not have. -/
theorem C74_driver_counterexample {σ α : Type} (getSpace : Py σ) (mkObj : σ → Py α)
    (rest : σ → α → Py Unit) :
    driverRun getSpace mkObj rest ≠ .ok () ∧
    ∀ sp, getSpace = .ok sp → driverRun getSpace mkObj rest = .error .typeError := by
  cases getSpace with
  | error e => simp [driverRun]
  | ok sp => simp [driverRun, driverObj, callKw, driverObjKwargs, singleObjectiveParams]

/-- **C74, negation for the unit of time.** The limit that the driver passes to the loop counts the
configured number of minutes as seconds: after 90 seconds of a run limited to two minutes, the driver's own
stop criterion does not stop, but the loop does. -/
theorem C74_unit_counterexample :
    let r : DriverConfig := ⟨1, .num 20, .num 2, 0⟩
    checkStop r 1 90 1 = false ∧
    ∀ a, driverRunArgs r = some a → ¬ Spec.TimeLeft a 90 := by
  refine ⟨by decide +kernel, ?_⟩
  intro a ha
  simp only [driverRunArgs, Option.some.injEq] at ha
  subst ha
  intro h
  have := h 2 rfl
  norm_num at this

/-- **C74, partial.** What holds: the stop criterion of the driver stops exactly if the run has converged
(indicated by 0), the configured number of iterations is reached, or the configured number of minutes has
elapsed, `'NA'` meaning no limit. Missing: `run` does not use it (nor the output engine), and does not
complete. -/
theorem C74_check_stop_partial (r : DriverConfig) (iters elapsed : ℚ) (converged : Int) :
    checkStop r iters elapsed converged = true ↔
      converged = 0 ∨ (∃ n, r.maxIter = .num n ∧ n ≤ iters) ∨
        (∃ t, r.maxTime = .num t ∧ 60 * t ≤ elapsed) := by
  have key : ∀ t : ℚ, t ≤ elapsed / 60 ↔ 60 * t ≤ elapsed := by
    intro t
    rw [le_div_iff₀ (by norm_num)]
    constructor <;> intro h <;> linarith
  unfold checkStop
  cases r.maxIter with
  | na =>
    cases r.maxTime with
    | na => simp
    | num t =>
      by_cases h : t ≤ elapsed / 60
      · simp [h, (key t).1 h]
      · simp [h, mt (key t).2 h]
  | num n =>
    cases r.maxTime with
    | na => by_cases h : n ≤ iters <;> simp [h]
    | num t =>
      by_cases h : t ≤ elapsed / 60
      · simp [h, (key t).1 h]
      · by_cases h2 : n ≤ iters <;> simp [h, h2, mt (key t).2 h]

/-- **C74, partial.** The rest of the driver passes the iteration budget correctly: a run with the
arguments of the driver makes at most the configured number of acquisitions. -/
theorem C74_budget_partial (r : DriverConfig) (n : Nat) (hr : r.maxIter = .num n) (a : RunArgs)
    (ha : driverRunArgs r = some a) (env : BOEnv) (fuel : Nat) (s s' : BOState) (why : Stop)
    (h : runOptimization env a fuel s = (s', .done why)) : s'.numAcq ≤ n := by
  obtain ⟨b, -, -, -, -, hb⟩ := C37_iteration_budget env a fuel s s' why h
  apply hb
  rw [driverRunArgs, hr] at ha
  injection ha with ha
  subst ha
  rfl

/-- **C74, arguments of the loop.** A configuration leads to arguments of the loop exactly if it has a number of iterations;
after `k` iterations and the time `t` in seconds they let the loop go on exactly if that number is greater than `k` and the
time limit, if there is one, is greater than `t` (as seconds, see the negation above), and the tolerance is the configured
one. -/
theorem C74_arguments_partial (r : DriverConfig) :
    ((∃ a, driverRunArgs r = some a) ↔ ∃ n, r.maxIter = .num n) ∧
    ∀ a, driverRunArgs r = some a →
      (∀ k : Nat, Spec.RoundsLeft a k ↔ ∃ n, r.maxIter = .num n ∧ (k : ℚ) < n) ∧
      (∀ t : ℚ, Spec.TimeLeft a t ↔ r.maxTime = .na ∨ ∃ l, r.maxTime = .num l ∧ t < l) ∧ a.eps = r.tolerance := by
  unfold driverRunArgs
  cases r.maxIter with
  | na => simp
  | num n =>
    refine ⟨by simp, fun a ha => ?_⟩
    simp only [Option.some.injEq] at ha
    subst ha
    refine ⟨fun k => ?_, fun t => ?_, rfl⟩
    · simp [Spec.RoundsLeft]
    · cases r.maxTime with
      | na => simp [Spec.TimeLeft]
      | num l => simp [Spec.TimeLeft]

example : ∃ a, driverRunArgs ⟨1, .num 20, .na, 0⟩ = some a := ⟨_, rfl⟩

end Props

end GPyOpt
