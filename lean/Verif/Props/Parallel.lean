import Verif.Lemmas.Parallel

/-!
# Properties C48–C50: parallel evaluation of a batch

`ParRun c k s` is an execution of `k` steps from the start of the evaluation to the state `s`; the
steps of the parent and of the `c.n` workers are interleaved in any order.
-/

namespace GPyOpt.Props

open GPyOpt

theorem evalFunc_values {f : Vec → Py ℚ} {clock : Nat → ℚ} {xs : Mat} {ys : Vec} {w : World}
    (h : List.Forall₂ (fun x y => f x = .ok y) xs ys) :
    (evalFunc (fun _ => f) clock xs w).2.map Prod.fst = .ok ys := by
  induction h generalizing w with
  | nil => rfl
  | @cons x y xs ys hxy _ ih =>
    unfold evalFunc
    simp only [hxy]
    have := ih (w := { calls := w.calls ++ [(x, .ok y)], ticks := w.ticks + 2 })
    rcases he : evalFunc (fun _ => f) clock xs { calls := w.calls ++ [(x, .ok y)], ticks := w.ticks + 2 }
      with ⟨w1, r⟩
    rw [he] at this
    cases r with
    | error e => simp [Except.map] at this
    | ok p =>
      simp only [Except.map, Except.ok.injEq] at this
      simp [Except.map, this]

theorem evalFunc_forall {f : Vec → Py ℚ} {clock : Nat → ℚ} {xs : Mat} {ys ts : Vec} {w : World}
    (h : (evalFunc (fun _ => f) clock xs w).2 = .ok (ys, ts)) :
    List.Forall₂ (fun x y => f x = .ok y) xs ys := by
  induction xs generalizing w ys ts with
  | nil =>
    simp only [evalFunc, Except.ok.injEq, Prod.mk.injEq] at h; rw [← h.1]; exact .nil
  | cons x xs ih =>
    unfold evalFunc at h
    cases hf : f x with
    | error e => simp [hf] at h
    | ok y =>
      simp only [hf] at h
      rcases he : evalFunc (fun _ => f) clock xs
        { calls := w.calls ++ [(x, .ok y)], ticks := w.ticks + 2 } with ⟨w1, r⟩
      rw [he] at h
      cases r with
      | error e => simp at h
      | ok p =>
        obtain ⟨ys1, ts1⟩ := p
        simp only [Except.ok.injEq, Prod.mk.injEq] at h
        rw [← h.1]
        exact .cons hf (ih (ts := ts1) (by rw [he]))

theorem right_forall {c : ParCfg} {acc : Vec} (hl : acc.length = c.x.length)
    (h : ∀ j < c.x.length, RightAt c acc j) : List.Forall₂ (fun x y => c.f x = .ok y) c.x acc := by
  rw [List.forall₂_iff_get]
  refine ⟨hl.symm, ?_⟩
  intro j h1 h2
  obtain ⟨row, y, e1, e2, e3⟩ := h j h1
  rw [List.getElem?_eq_getElem h1] at e1
  rw [List.getElem?_eq_getElem h2] at e2
  injection e1 with e1
  injection e2 with e2
  simp only [List.get_eq_getElem]
  rw [e1, e2, e3]

/-- C48. Under every interleaving and with any number `n ≥ 1` of processes, what a parallel evaluation
returns are the values of the objective in row order: the outputs of the sequential evaluation. This
also holds if processes cannot be started, when the sequential evaluation is used. -/
theorem C48_parallel_equals_sequential (c : ParCfg) (hn : 1 ≤ c.n) (clock : Nat → ℚ) (w : World)
    (r : Py (Vec × CostEvals)) (h : ParEvaluates c clock w r) :
    r.map Prod.fst = (evalFunc (fun _ => c.f) clock c.x w).2.map Prod.fst ∧
    ∀ ys t, r = .ok (ys, t) → List.Forall₂ (fun x y => c.f x = .ok y) c.x ys := by
  have hseq := fun ys ts => evalFunc_forall (f := c.f) (clock := clock) (xs := c.x) (w := w) (ys := ys) (ts := ts)
  cases h with
  | @parallel k s acc hrun hp =>
    have hs := (parInv_run hn hrun).phase
    rw [PhaseInv, hp] at hs
    have hall := right_forall hs.1 hs.2.1
    refine ⟨?_, ?_⟩
    · rw [evalFunc_values hall]; rfl
    · intro ys t hr
      simp only [Except.ok.injEq, Prod.mk.injEq] at hr
      rw [← hr.1]; exact hall
  | fallback hrun hp =>
    cases he : (evalFunc (fun _ => c.f) clock c.x w).2 with
    | error e => exact ⟨rfl, fun ys t hr => by simp [Except.map] at hr⟩
    | ok p =>
      refine ⟨rfl, ?_⟩
      intro ys t hr
      simp only [Except.map, Except.ok.injEq, Prod.mk.injEq] at hr
      exact hseq ys p.2 (by rw [he, ← hr.1])

/-- With no process at all (`num_cores = 0`) nothing is evaluated and zeros are returned. -/
theorem C48_zero_processes_counterexample (f : Vec → Py ℚ) (x : Mat) (size : Vec → Nat) (cap : Nat) :
    ∃ k s, ParRun { n := 0, f := f, x := x, size := size, cap := cap, canStart := true } k s ∧
      s.parent = .done (List.replicate x.length 0) :=
  ⟨3, _, ((ParRun.zero.succ (.started _ rfl)).succ (.joined _ rfl)).succ (.finish _ _ rfl), rfl⟩

/-- C50 (partial: the objective must not raise and messages must fit into the pipes). Every execution
is finite, of length at most a bound that depends on the batch only, and one that cannot be continued
has finished: so every schedule terminates, with a result. -/
theorem C50_terminates_partial (c : ParCfg) (hn : 1 ≤ c.n) (hf : ∀ row ∈ c.x, ∃ y, c.f row = .ok y)
    (hsz : ∀ v, v.length ≤ c.x.length → c.size v ≤ c.cap) :
    (∃ bound, ∀ k s, ParRun c k s → k ≤ bound) ∧
    (∀ k s, ParRun c k s → (¬ ∃ t, ParStep c s t) → (∃ acc, s.parent = .done acc) ∨ s.parent = .failed) ∧
    (c.canStart = true → ∀ k s, ParRun c k s → s.parent ≠ .failed) := by
  refine ⟨⟨parRank c ParCfg.init, fun k s h => by have := parRun_bound hn h; omega⟩, ?_, ?_⟩
  · intro k s h hno
    rcases par_progress hn hf hsz (parInv_run hn h) with hd | hd | hd
    · exact Or.inl hd
    · exact Or.inr hd
    · exact absurd hd hno
  · intro hc k s h hp
    have := (parInv_run hn h).phase
    rw [PhaseInv, hp, hc] at this
    cases this

theorem message_mapE {c : ParCfg} {i : Nat} {v : Vec} (h : Message c i v) :
    mapE c.f (c.rows i) = .ok v := by
  rw [mapE_eq_ok, List.forall₂_iff_get]
  refine ⟨h.1.symm, ?_⟩
  intro j h1 h2
  obtain ⟨row, e1, e2⟩ := h.2 j _ (List.getElem?_eq_getElem h2)
  rw [List.getElem?_eq_getElem h1] at e1
  injection e1 with e1
  simp only [List.get_eq_getElem]
  rw [e1, e2]

/-- every row belongs to a worker -/
theorem rows_cover {c : ParCfg} (hn : 1 ≤ c.n) {row : Vec} (h : row ∈ c.x) :
    ∃ i < c.n, row ∈ c.rows i := by
  obtain ⟨j, hj⟩ := List.mem_iff_getElem?.1 h
  refine ⟨j % c.n, Nat.mod_lt _ hn, ?_⟩
  rw [List.mem_iff_getElem?]
  refine ⟨j / c.n, ?_⟩
  unfold ParCfg.rows
  rw [strided_getElem? _ _ _ _ hn, ← hj]
  congr 1
  have := Nat.mod_add_div j c.n
  rw [Nat.mul_comm] at this
  exact this

/-- C49 (negation). If processes can be started and the objective raises at some row of the batch,
then no execution ever returns or falls back to the sequential evaluation; as executions are finite,
every schedule ends in a state in which the parent waits for ever. -/
theorem C49_worker_failure_counterexample (c : ParCfg) (hn : 1 ≤ c.n) (hc : c.canStart = true)
    (row : Vec) (hrow : row ∈ c.x) (e : Err) (he : c.f row = .error e) :
    (∀ k s, ParRun c k s → (∀ acc, s.parent ≠ .done acc) ∧ s.parent ≠ .failed) ∧
    (∃ bound, ∀ k s, ParRun c k s → k ≤ bound) ∧
    (∀ clock w r, ¬ ParEvaluates c clock w r) := by
  obtain ⟨i, hi, hri⟩ := rows_cover hn hrow
  have hno : ¬ ∃ v, Message c i v ∧ c.size v ≤ c.cap := by
    rintro ⟨v, hv, -⟩
    obtain ⟨b, -, hb⟩ := mapE_ok_mem' (message_mapE hv) hri
    rw [he] at hb; cases hb
  refine ⟨fun k s h => par_hang hn hc hi hno h,
    ⟨parRank c ParCfg.init, fun k s h => by have := parRun_bound hn h; omega⟩, ?_⟩
  intro clock w r hr
  cases hr with
  | parallel h hp => exact (par_hang hn hc hi hno h).1 _ hp
  | fallback h hp => exact (par_hang hn hc hi hno h).2 hp

/-- C49 (partial: only if the processes cannot be started). Then the evaluation falls back to the
sequential one, whatever its outcome. -/
theorem C49_fallback_partial (c : ParCfg) (hn : 1 ≤ c.n) (hc : c.canStart = false) (clock : Nat → ℚ)
    (w : World) (r : Py (Vec × CostEvals)) :
    ParEvaluates c clock w r ↔
      r = (evalFunc (fun _ => c.f) clock c.x w).2.map fun p => (p.1, .list p.2) := by
  have hstart : ∀ {k s}, ParRun c k s →
      s.parent ≠ .starting 0 → s.parent = .failed := by
    intro k s h
    have hidle : (s.parent = .starting 0 ∧ ∀ i, s.worker i = .idle) ∨
        (s.parent = .failed ∧ ∀ i, s.worker i = .idle) := by
      induction h with
      | zero => exact Or.inl ⟨rfl, fun _ => rfl⟩
      | @succ k s t hr hstep ih =>
        rcases ih with ⟨hp, hw⟩ | ⟨hp, hw⟩ <;> cases hstep <;> simp_all
    rcases hidle with h | h
    · exact fun hne => absurd h.1 hne
    · exact fun _ => h.1
  constructor
  · intro h
    cases h with
    | parallel hrun hp =>
      have := hstart hrun (by rw [hp]; simp)
      rw [hp] at this; cases this
    | fallback hrun hp => rfl
  · rintro rfl
    exact .fallback (ParRun.zero.succ (.startFails _ 0 rfl hn hc)) rfl

/-- C50 (negation). If processes can be started and the message of some worker is larger than the
capacity of its pipe, then no execution ever returns: the worker waits for the parent to read, the
parent waits for the worker to end. -/
theorem C50_deadlock_counterexample (c : ParCfg) (hn : 1 ≤ c.n) (hc : c.canStart = true)
    (i : Nat) (hi : i < c.n) (v : Vec) (hv : mapE c.f (c.rows i) = .ok v) (hbig : c.cap < c.size v) :
    (∀ k s, ParRun c k s → (∀ acc, s.parent ≠ .done acc) ∧ s.parent ≠ .failed) ∧
    (∃ bound, ∀ k s, ParRun c k s → k ≤ bound) ∧
    (∀ clock w r, ¬ ParEvaluates c clock w r) := by
  have hno : ¬ ∃ v, Message c i v ∧ c.size v ≤ c.cap := by
    rintro ⟨v', hv', hs⟩
    rw [message_mapE hv'] at hv
    injection hv with hv
    subst hv
    omega
  refine ⟨fun k s h => par_hang hn hc hi hno h,
    ⟨parRank c ParCfg.init, fun k s h => by have := parRun_bound hn h; omega⟩, ?_⟩
  intro clock w r hr
  cases hr with
  | parallel h hp => exact (par_hang hn hc hi hno h).1 _ hp
  | fallback h hp => exact (par_hang hn hc hi hno h).2 hp

/-- Two processes, three rows: doubling, with pipes that hold four outputs. -/
def exPar : ParCfg :=
  { n := 2, f := fun r => .ok (2 * r.getD 0 0), x := [[1], [2], [3]], size := List.length, cap := 4,
    canStart := true }

/-- A schedule in which the second worker finishes before the first one has evaluated its second row. -/
example : ∃ k s, ParRun exPar k s ∧ s.parent = .done [2, 4, 6] := by
  have r := ParRun.zero (c := exPar)
  have r := r.succ (.start _ 0 rfl (by decide) rfl)
  have r := r.succ (.eval _ 0 [] [1] 2 (by decide) rfl (by decide +kernel) (by decide +kernel))
  have r := r.succ (.start _ 1 rfl (by decide) rfl)
  have r := r.succ (.started _ rfl)
  have r := r.succ (.eval _ 1 [] [2] 4 (by decide) rfl (by decide +kernel) (by decide +kernel))
  have r := r.succ (.send _ 1 [4] (by decide) rfl (by decide +kernel) (by decide))
  have r := r.succ (.eval _ 0 [2] [3] 6 (by decide) rfl (by decide +kernel) (by decide +kernel))
  have r := r.succ (.send _ 0 [2, 6] (by decide) rfl (by decide +kernel) (by decide))
  have r := r.succ (.join _ 0 rfl (by decide) (Or.inl rfl))
  have r := r.succ (.join _ 1 rfl (by decide) (Or.inl rfl))
  have r := r.succ (.joined _ rfl)
  have r := r.succ (.recv _ 0 _ [2, 0, 6] [2, 6] rfl (by decide) rfl (by decide +kernel))
  have r := r.succ (.recv _ 1 _ [2, 4, 6] [4] rfl (by decide) rfl (by decide +kernel))
  exact ⟨_, _, r.succ (.finish _ _ rfl), rfl⟩

/-- The hypotheses of `C50_terminates_partial` hold there. -/
example : 1 ≤ exPar.n ∧ (∀ row ∈ exPar.x, ∃ y, exPar.f row = .ok y) ∧
    (∀ v : Vec, v.length ≤ exPar.x.length → exPar.size v ≤ exPar.cap) := by
  refine ⟨by decide, fun row _ => ⟨_, rfl⟩, fun v hv => ?_⟩
  simp only [exPar, List.length_cons, List.length_nil] at hv ⊢
  omega

/-- An objective that raises at the second row: the hypotheses of `C49_worker_failure_counterexample`. -/
example : ∃ row ∈ exPar.x, ∃ e, (fun r : Vec => if r = [2] then (.error .valueError : Py ℚ) else .ok 0) row = .error e :=
  ⟨[2], by decide +kernel, .valueError, by decide +kernel⟩

/-- A pipe that holds one output only: the hypotheses of `C50_deadlock_counterexample`. -/
example : mapE exPar.f (ParCfg.rows { exPar with cap := 1 } 0) = .ok [2, 6] ∧
    ({ exPar with cap := 1 } : ParCfg).cap < ({ exPar with cap := 1 } : ParCfg).size [2, 6] := by
  decide +kernel

end GPyOpt.Props
