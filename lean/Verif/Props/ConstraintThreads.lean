import Verif.Model.ConstraintThreads
import Verif.Lemmas.Py

/-!
# Property C135: constraints in several threads
-/

namespace GPyOpt

/-- What is left to do, done without interruption. -/
def CThread.finish (t : CThread) : Py (List ℚ) :=
  match t.w with
  | .error e => .error e
  | .ok w => applyConstrs (t.todo.map fun c => { constraint := some c }) t.x w

/-- Compiled constraints are the ones the global name is bound to. -/
def CThread.Safe (g : Option Constr) (t : CThread) : Prop :=
  t.compiled = true → t.w.isOk = true → ∃ c cs, t.todo = c :: cs ∧ g = some c

theorem CThread.step_finish {g : Option Constr} {t : CThread} (h : t.Safe g) : (t.step g).2.finish = t.finish := by
  obtain ⟨x, todo, compiled, w⟩ := t
  cases w with
  | error e => rfl
  | ok w =>
    cases todo with
    | nil => rfl
    | cons c cs =>
      cases compiled with
      | false => rfl
      | true =>
        obtain ⟨c', cs', h1, rfl⟩ := h rfl rfl
        simp only [List.cons.injEq] at h1
        obtain ⟨rfl, rfl⟩ := h1
        simp only [CThread.step, if_true, CThread.finish, List.map_cons]
        conv_rhs => unfold applyConstrs applyConstr
        unfold applyFun
        dsimp only
        cases mapE c x with
        | error e => rfl
        | ok vals => rfl

theorem CThread.finish_of_done {t : CThread} (h : t.done) : t.finish = t.w := by
  unfold CThread.finish
  rcases h with h | ⟨e, h⟩
  · cases hw : t.w with
    | error e => rfl
    | ok w => rw [h]; rfl
  · rw [h]

theorem CThread.step_x (g : Option Constr) (t : CThread) : (t.step g).2.x = t.x := by
  unfold CThread.step
  split
  · split
    · split <;> rfl
    · rfl
  · rfl

theorem CThread.step_todo (g : Option Constr) (t : CThread) : ∀ c ∈ (t.step g).2.todo, c ∈ t.todo := by
  intro c hc
  unfold CThread.step at hc
  split at hc
  · next h =>
    split at hc
    · split at hc
      · simpa using hc
      · rw [h]; exact List.mem_cons_of_mem _ hc
    · simpa using hc
  · exact hc

theorem CState.step_finish {s : CState} (h : ∀ t ∈ s.threads, t.Safe s.glob) (k : Nat) :
    (s.step k).threads.map CThread.finish = s.threads.map CThread.finish := by
  unfold CState.step
  cases ht : s.threads[k]? with
  | none => rfl
  | some t =>
    simp only
    apply List.ext_getElem?
    intro i
    rw [List.getElem?_map, List.getElem?_map, List.getElem?_set]
    split
    · next hik =>
      subst hik
      have hlt := (List.getElem?_eq_some_iff.1 ht).1
      rw [if_pos hlt, ht]
      simp only [Option.map_some, Option.some.injEq]
      exact CThread.step_finish (h t (List.mem_of_getElem? ht))
    · rfl

theorem CState.run_finish (I : CState → Prop) (hI : ∀ s, I s → ∀ t ∈ s.threads, t.Safe s.glob)
    (hstep : ∀ s k, I s → I (s.step k)) : ∀ (sched : List Nat) (s : CState), I s →
    ((s.run sched).threads.map CThread.finish) = s.threads.map CThread.finish
  | [], _, _ => rfl
  | k :: sched, s, h => by
    have ih := CState.run_finish I hI hstep sched (s.step k) (hstep s k h)
    show ((s.step k).run sched).threads.map _ = _
    rw [ih]
    exact CState.step_finish (hI s h) k

theorem CState.mem_step {s : CState} {k : Nat} {t' : CThread} (h : t' ∈ (s.step k).threads) :
    t' ∈ s.threads ∨ ∃ t ∈ s.threads, s.threads[k]? = some t ∧ t' = (t.step s.glob).2 := by
  unfold CState.step at h
  cases ht : s.threads[k]? with
  | none => rw [ht] at h; exact .inl h
  | some t =>
    rw [ht] at h
    simp only at h
    rcases List.mem_or_eq_of_mem_set h with h | h
    · exact .inl h
    · exact .inr ⟨t, List.mem_of_getElem? ht, rfl, h⟩

theorem CState.glob_step (s : CState) (k : Nat) :
    (s.step k).glob = s.glob ∨ ∃ t ∈ s.threads, ∃ c ∈ t.todo, (s.step k).glob = some c := by
  unfold CState.step
  cases ht : s.threads[k]? with
  | none => exact .inl rfl
  | some t =>
    simp only
    unfold CThread.step
    split
    · next c cs _ hc =>
      split
      · split <;> exact .inl rfl
      · exact .inr ⟨t, List.mem_of_getElem? ht, c, by rw [hc]; simp, rfl⟩
    · exact .inl rfl

theorem CState.getElem_step (s : CState) (k i : Nat) : (s.step k).threads[i]? =
    if i = k then s.threads[i]?.map (fun t => (t.step s.glob).2) else s.threads[i]? := by
  unfold CState.step
  cases ht : s.threads[k]? with
  | none =>
    by_cases h : i = k
    · subst h; simp [ht]
    · rw [if_neg h]
  | some t =>
    simp only
    rw [List.getElem?_set]
    by_cases h : i = k
    · subst h
      rw [if_pos rfl, if_pos rfl, if_pos (List.getElem?_eq_some_iff.1 ht).1, ht]
      rfl
    · rw [if_neg (Ne.symm h), if_neg h]

theorem CThread.step_safe {g : Option Constr} {t : CThread} (h : t.compiled = true → t.w.isOk = false) :
    (t.step g).2.Safe (t.step g).1 := by
  obtain ⟨x, todo, compiled, w⟩ := t
  cases w with
  | error e => intro _ h1; cases h1
  | ok w =>
    cases compiled with
    | true => cases h rfl
    | false =>
      cases todo with
      | nil => intro h1; cases h1
      | cons c cs => intro _ _; exact ⟨c, cs, rfl, rfl⟩

theorem CThread.step_step {g : Option Constr} {t : CThread} (h : t.compiled = true → t.w.isOk = false)
    (h1 : ((t.step g).2.step (t.step g).1).2.compiled = true) : ((t.step g).2.step (t.step g).1).2.w.isOk = false := by
  obtain ⟨x, todo, compiled, w⟩ := t
  cases w with
  | error e => rfl
  | ok w =>
    cases compiled with
    | true => cases h rfl
    | false =>
      cases todo with
      | nil => cases h1
      | cons c cs => cases h1

/-- What a thread returns, from the invariant of `finish`. -/
theorem CState.result {s₀ s : CState} (h : s.threads.map CThread.finish = s₀.threads.map CThread.finish) {k : Nat}
    {t t₀ : CThread} (h₀ : s₀.threads[k]? = some t₀) (ht : s.threads[k]? = some t) (hd : t.done) : t.w = t₀.finish := by
  have := congrArg (·[k]?) h
  simp only [List.getElem?_map, h₀, ht, Option.map_some, Option.some.injEq] at this
  rw [← this, CThread.finish_of_done hd]

namespace Props

/-- The result of `indicator_constraints` in a thread of its own. -/
def aloneIndicator (x : Mat) (cs : List Constr) : Py (List ℚ) :=
  applyConstrs (cs.map fun c => { constraint := some c }) x (x.map fun _ => 1)

/-- The calls of the threads, before their first steps. -/
def startState (g : Option Constr) (calls : List (Mat × List Constr)) : CState :=
  ⟨g, calls.map fun p => CThread.start p.1 p.2⟩

/-- C135 (partial: one and the same constraint everywhere). Under every schedule of any number of threads, a thread that
returns returns what it would return alone. -/
theorem C135_same_constraint_partial (c : Constr) (calls : List (Mat × List Constr)) (hc : ∀ p ∈ calls, ∀ f ∈ p.2, f = c)
    (g : Option Constr) (sched : List Nat) (k : Nat) (x : Mat) (cs : List Constr) (hk : calls[k]? = some (x, cs))
    (t : CThread) (ht : ((startState g calls).run sched).threads[k]? = some t) (hd : t.done) :
    t.w = aloneIndicator x cs := by
  refine CState.result (CState.run_finish (fun s => ∀ t ∈ s.threads, (∀ f ∈ t.todo, f = c) ∧
    (t.compiled = true → t.w.isOk = true → t.todo ≠ [] ∧ s.glob = some c)) ?_ ?_ sched _ ?_)
    (t₀ := CThread.start x cs) ?_ ht hd
  · intro s h t ht h1 h2
    obtain ⟨a1, a2⟩ := h t ht
    obtain ⟨b1, b2⟩ := a2 h1 h2
    cases htd : t.todo with
    | nil => exact absurd htd b1
    | cons f fs => exact ⟨f, fs, rfl, by rw [b2, a1 f (by rw [htd]; simp)]⟩
  · intro s k h t' ht'
    have hg : s.glob = some c → (s.step k).glob = some c := by
      intro hg
      rcases s.glob_step k with h1 | ⟨u, hu, f, hf, h1⟩
      · rw [h1, hg]
      · rw [h1, (h u hu).1 f hf]
    rcases CState.mem_step ht' with h1 | ⟨t, h1, h2, rfl⟩
    · exact ⟨(h t' h1).1, fun h2 h3 => ⟨((h t' h1).2 h2 h3).1, hg ((h t' h1).2 h2 h3).2⟩⟩
    · refine ⟨fun f hf => (h t h1).1 f (CThread.step_todo _ _ f hf), ?_⟩
      obtain ⟨a1, a2⟩ := h t h1
      have hglob : (s.step k).glob = (t.step s.glob).1 := by unfold CState.step; rw [h2]
      rw [hglob]
      obtain ⟨x, todo, compiled, w⟩ := t
      cases w with
      | error e => intro _ h3; cases h3
      | ok w =>
        cases todo with
        | nil => exact a2
        | cons f fs =>
          cases compiled with
          | false => intro _ _; exact ⟨by simp [CThread.step], by simp only [CThread.step]; rw [← a1 f (by simp)]; rfl⟩
          | true =>
            obtain ⟨b1, b2⟩ := a2 rfl rfl
            rw [b2]
            intro h3
            cases h3
  · intro t ht
    simp only [startState, List.mem_map] at ht
    obtain ⟨p, hp, rfl⟩ := ht
    exact ⟨hc p hp, fun h => by cases h⟩
  · simp [startState, hk]

/-- C135 (partial: no thread is interrupted between the two lines). Whatever the constraints. -/
theorem C135_uninterrupted_partial (calls : List (Mat × List Constr)) (g : Option Constr) (ks : List Nat) (k : Nat)
    (x : Mat) (cs : List Constr) (hk : calls[k]? = some (x, cs)) (t : CThread)
    (ht : ((startState g calls).run (ks.flatMap fun k => [k, k])).threads[k]? = some t) (hd : t.done) :
    t.w = aloneIndicator x cs := by
  have hun : ∀ (ks : List Nat) (s : CState), (∀ t ∈ s.threads, t.compiled = true → t.w.isOk = false) →
      (s.run (ks.flatMap fun k => [k, k])).threads.map CThread.finish = s.threads.map CThread.finish := by
    intro ks
    induction ks with
    | nil => intro s _; rfl
    | cons k ks ih =>
      intro s h
      show (((s.step k).step k).run _).threads.map _ = _
      have hsafe : ∀ t ∈ s.threads, t.Safe s.glob := fun t ht h1 h2 => by rw [h t ht h1] at h2; cases h2
      have h1 := CState.step_finish hsafe k
      have hsafe2 : ∀ t ∈ (s.step k).threads, t.Safe (s.step k).glob := by
        intro t' ht'
        rcases CState.mem_step ht' with h2 | ⟨t, h2, h3, rfl⟩
        · intro h3 h4
          rw [h t' h2 h3] at h4
          cases h4
        · have hglob : (s.step k).glob = (t.step s.glob).1 := by unfold CState.step; rw [h3]
          rw [hglob]
          exact CThread.step_safe (h t h2)
      rw [← h1, ← CState.step_finish hsafe2 k]
      apply ih
      intro t' ht'
      obtain ⟨i, hi⟩ := List.getElem?_of_mem ht'
      rw [CState.getElem_step, CState.getElem_step] at hi
      by_cases hik : i = k
      · subst hik
        rw [if_pos rfl, if_pos rfl] at hi
        cases h3 : s.threads[i]? with
        | none => rw [h3] at hi; cases hi
        | some t =>
          have hglob : (s.step i).glob = (t.step s.glob).1 := by unfold CState.step; rw [h3]
          rw [h3, hglob] at hi
          simp only [Option.map_some, Option.some.injEq] at hi
          subst hi
          exact CThread.step_step (h t (List.mem_of_getElem? h3))
      · rw [if_neg hik, if_neg hik] at hi
        exact h t' (List.mem_of_getElem? hi)
  refine CState.result (hun ks _ ?_) (t₀ := CThread.start x cs) ?_ ht hd
  · intro t ht h1
    simp only [startState, List.mem_map] at ht
    obtain ⟨p, hp, rfl⟩ := ht
    cases h1
  · simp [startState, hk]

/-- **C135 (negation).** With two threads, whatever their constraints `f` and `h`, there is a schedule after which the
first thread has returned the indicator of the constraint of the second. -/
theorem C135_threads_counterexample (f h : Constr) (x y : Mat) (g : Option Constr) :
    ∃ sched t, ((startState g [(x, [f]), (y, [h])]).run sched).threads[0]? = some t ∧ t.done ∧
      t.w = aloneIndicator x [h] := by
  refine ⟨[0, 1, 0], _, rfl, .inl rfl, ?_⟩
  show applyFun h x _ = _
  unfold aloneIndicator applyFun
  simp only [List.map_cons, List.map_nil]
  unfold applyConstrs applyConstr
  dsimp only
  cases mapE h x with
  | error e => rfl
  | ok v => rfl

/-- Two threads that return under an interleaving of the kind of `C135_same_constraint_partial`. -/
example (c : Constr) (x y : Mat) : ∀ t ∈ ((startState none [(x, [c]), (y, [c])]).run [0, 1, 0, 1]).threads,
    t.done := by
  intro t ht
  have : t.todo = [] := by
    revert ht
    cases hx : mapE c x <;> cases hy : mapE c y <;>
      simp [startState, CState.run, CState.step, CThread.step, CThread.start, applyFun, hx, hy] <;>
      rintro (rfl | rfl) <;> simp
  exact .inl this

/-- An infeasible location is reported as feasible. -/
example : aloneIndicator [[2]] [fun r => .ok (r.headD 0 - 1)] = .ok [0] ∧
    aloneIndicator [[2]] [fun r => .ok (r.headD 0 - 3)] = .ok [1] := by decide +kernel

end Props

end GPyOpt
