import Verif.Model.CostGP
import Verif.Props.Records

/-!
# Properties C51, C52: the cost model
-/

namespace GPyOpt.Props

open GPyOpt Spec

/-- One call of `update_cost_model`: locations, times, outcome of the fit. -/
structure CostCall where
  x : Mat
  t : CostEvals
  fit : Py Unit

/-- The cost model after a sequence of calls, whatever their outcomes. -/
def costAfter (lg : ℚ → ℚ) : List CostCall → CostModel → CostModel
  | [], c => c
  | u :: us, c => costAfter lg us (c.update lg u.fit u.x u.t).1

/-- The times of a call. -/
def CostCall.times (u : CostCall) : Vec :=
  match u.t with
  | .list ts => ts
  | .column ts => ts

/-- One time per location, as a list or as a column with one entry. -/
def CostCall.Regular (u : CostCall) : Prop :=
  u.times.length = u.x.length ∧ ∀ ts, u.t = .column ts → ts.length = 1

theorem columnValues_map (lg : ℚ → ℚ) (ts : Vec) :
    columnValues (ts.map fun t => [lg t]) = some (ts.map lg) := by
  induction ts with
  | nil => rfl
  | cons t ts ih => simp [columnValues, ih]

theorem regular_column {u : CostCall} (h : u.Regular) (lg : ℚ → ℚ) :
    columnValues (costColumn lg u.t) = some (u.times.map lg) := by
  obtain ⟨x, t, fit⟩ := u
  cases t with
  | list ts => exact columnValues_map lg ts
  | column ts =>
    have := h.2 ts rfl
    match ts, this with
    | [t], _ => rfl

theorem update_regular {lg : ℚ → ℚ} {c : CostModel} (hk : c.kind = .evaluationTime) {u : CostCall}
    (hu : u.Regular) {X : Mat} {L : Vec} (hl : L.length = X.length)
    (hc : (c.numUpdates = 0 ∧ X = [] ∧ L = []) ∨ (c.numUpdates ≠ 0 ∧ c.data = some (X, L))) :
    c.update lg u.fit u.x u.t =
      ({ kind := .evaluationTime, numUpdates := c.numUpdates + 1,
         data := some (X ++ u.x, L ++ u.times.map lg) }, u.fit) := by
  unfold CostModel.update
  rw [hk]
  simp only [regular_column hu]
  have hlen := hu.1
  rcases hc with ⟨h0, rfl, rfl⟩ | ⟨h0, hd⟩
  · rw [if_pos h0, if_pos (by simp [hlen])]
    simp
  · rw [if_neg h0, hd]
    simp only
    rw [if_pos (by simp [hlen, hl])]

/-- C51 (partial: times of a parallel evaluation of several rows are excluded). After any sequence of
updates, whatever the outcomes of the fits, the GP of the cost model holds all locations and log-times
given so far, in order; an update raises only if the fit does. The predicted cost is positive and its
gradient is the gradient of its value. -/
theorem C51_cost_data_partial (lg : ℚ → ℚ) (us : List CostCall) (hu : ∀ u ∈ us, u.Regular)
    (hne : us ≠ []) :
    (costAfter lg us (costModelInit (.str "evaluation_time"))).data
      = some ((us.map (·.x)).flatten, ((us.map (·.times)).flatten).map lg) ∧
    (∀ u : CostCall, u.Regular →
      ((costAfter lg us (costModelInit (.str "evaluation_time"))).update lg u.fit u.x u.t).2 = u.fit) ∧
    (∀ gp user x, ∃ v dv,
      (costAfter lg us (costModelInit (.str "evaluation_time"))).costWithGradients gp user x = .ok (v, dv) ∧
      0 < v ∧ ∀ i, HasDerivAt (fun a => (gp ((us.map (·.x)).flatten, ((us.map (·.times)).flatten).map lg)
          (Function.update x i a)).1)
          ((gp ((us.map (·.x)).flatten, ((us.map (·.times)).flatten).map lg) x).2 i) (x i) →
        ∃ g : ℝ → ℝ, g (x i) = v ∧ HasDerivAt g (dv i) (x i) ∧
          ∀ a, ∃ da, (costAfter lg us (costModelInit (.str "evaluation_time"))).costWithGradients gp user
            (Function.update x i a) = .ok (g a, da)) := by
  have key : ∀ (us : List CostCall), (∀ u ∈ us, u.Regular) → ∀ (c : CostModel) (X : Mat) (L : Vec),
      c.kind = .evaluationTime → L.length = X.length →
      ((c.numUpdates = 0 ∧ X = [] ∧ L = []) ∨ (c.numUpdates ≠ 0 ∧ c.data = some (X, L))) →
      (costAfter lg us c).kind = .evaluationTime ∧ (us ≠ [] → (costAfter lg us c).numUpdates ≠ 0 ∧
      (costAfter lg us c).data = some (X ++ (us.map (·.x)).flatten,
        L ++ ((us.map (·.times)).flatten).map lg)) := by
    intro us
    induction us with
    | nil => intro _ c X L hk _ _; exact ⟨hk, fun h => absurd rfl h⟩
    | cons u us ih =>
      intro hu c X L hk hl hc
      have hreg := hu u (by simp)
      have hstep := update_regular (lg := lg) hk hreg hl hc
      simp only [costAfter, hstep]
      obtain ⟨h1, h2⟩ := ih (fun v hv => hu v (by simp [hv]))
        { kind := .evaluationTime, numUpdates := c.numUpdates + 1,
          data := some (X ++ u.x, L ++ u.times.map lg) } (X ++ u.x) (L ++ u.times.map lg) rfl
        (by simp [hl, hreg.1]) (Or.inr ⟨Nat.succ_ne_zero _, rfl⟩)
      refine ⟨h1, fun _ => ?_⟩
      cases us with
      | nil => simp [costAfter]
      | cons u' us =>
        obtain ⟨h3, h4⟩ := h2 (by simp)
        refine ⟨h3, ?_⟩
        rw [h4]
        simp
  have hlen : (((us.map (·.times)).flatten).map lg).length = ((us.map (·.x)).flatten).length := by
    clear hne key
    induction us with
    | nil => rfl
    | cons u us ih =>
      have := ih (fun v hv => hu v (by simp [hv]))
      have h1 := (hu u (by simp)).1
      simp only [List.map_cons, List.flatten_cons, List.map_append, List.length_append,
        List.length_map] at this ⊢
      omega
  obtain ⟨hk, hd⟩ := key us hu (costModelInit (.str "evaluation_time")) [] [] rfl rfl
    (Or.inl ⟨rfl, rfl, rfl⟩)
  obtain ⟨hn, hd⟩ := hd hne
  simp only [List.nil_append] at hd
  refine ⟨hd, ?_, ?_⟩
  · intro u hreg
    rw [update_regular hk hreg hlen (Or.inr ⟨hn, hd⟩)]
  · intro gp user x
    have hval : ∀ x, (costAfter lg us (costModelInit (.str "evaluation_time"))).costWithGradients gp user x
        = .ok (Real.exp (gp ((us.map (·.x)).flatten, ((us.map (·.times)).flatten).map lg) x).1,
          fun i => Real.exp (gp ((us.map (·.x)).flatten, ((us.map (·.times)).flatten).map lg) x).1 *
            (gp ((us.map (·.x)).flatten, ((us.map (·.times)).flatten).map lg) x).2 i) := by
      intro x
      unfold CostModel.costWithGradients
      rw [hk, hd]
    refine ⟨_, _, hval x, Real.exp_pos _, ?_⟩
    intro i hder
    refine ⟨fun a => Real.exp (gp _ (Function.update x i a)).1, by simp, ?_, fun a => ⟨_, hval _⟩⟩
    have := hder.exp
    simpa using this

example : (costAfter id [⟨[[1], [2]], .list [3, 4], .ok ()⟩, ⟨[[5]], .column [6], .error .linAlg⟩]
    (costModelInit (.str "evaluation_time"))).data = some ([[1], [2], [5]], [3, 4, 6]) := by
  decide +kernel

/-- C51 (negation of the full property). Updating a new cost model with the times that a parallel
evaluation of at least two rows returns raises, and every later update raises as well: the cost model
never holds any data. -/
theorem C51_parallel_times_counterexample (lg : ℚ → ℚ) (x : Mat) (ts : Vec) (hts : ts.length ≠ 1)
    (fit : Py Unit) (us : List CostCall) :
    ((costModelInit (.str "evaluation_time")).update lg fit x (.column ts)).2 = .error .valueError ∧
    (costAfter lg (⟨x, .column ts, fit⟩ :: us) (costModelInit (.str "evaluation_time"))).data = none ∧
    ∀ u : CostCall, ∃ e, ((costAfter lg (⟨x, .column ts, fit⟩ :: us)
      (costModelInit (.str "evaluation_time"))).update lg u.fit u.x u.t).2 = .error e := by
  have hcol : columnValues (costColumn lg (.column ts)) = none := by
    match ts, hts with
    | [], _ => rfl
    | _ :: _ :: _, _ => rfl
  have h1 : (costModelInit (.str "evaluation_time")).update lg fit x (.column ts)
      = ({ kind := .evaluationTime, numUpdates := 1, data := none }, .error .valueError) := by
    unfold CostModel.update
    simp [costModelInit, hcol]
  have hupd : ∀ (n : Nat) (u : CostCall), ∃ m e, CostModel.update lg u.fit
      { kind := .evaluationTime, numUpdates := n + 1, data := none } u.x u.t
      = ({ kind := .evaluationTime, numUpdates := m + 1, data := none }, .error e) := by
    intro n u
    unfold CostModel.update
    simp only
    exact ⟨n, .attributeError, by simp⟩
  have hstate : ∀ n, ∃ m, costAfter lg us { kind := .evaluationTime, numUpdates := n + 1, data := none }
      = { kind := .evaluationTime, numUpdates := m + 1, data := none } := by
    induction us with
    | nil => exact fun n => ⟨n, rfl⟩
    | cons u us ih =>
      intro n
      obtain ⟨m, e, hm⟩ := hupd n u
      simp only [costAfter, hm]
      exact ih m
  obtain ⟨m, hm⟩ := hstate 0
  refine ⟨by rw [h1], ?_, ?_⟩
  · simp only [costAfter, h1]
    rw [hm]
  · intro u
    simp only [costAfter, h1]
    rw [hm]
    obtain ⟨m', e, h⟩ := hupd m u
    exact ⟨e, by rw [h]⟩

/-! ## The cost model inside the loop -/

theorem evalFunc_times {obj : Nat → Vec → Py ℚ} {clock : Nat → ℚ} {xs : Mat} {w w' : World}
    {ys ts : Vec} (h : evalFunc obj clock xs w = (w', .ok (ys, ts))) :
    ∃ ks : List Nat, ks.Pairwise (· < ·) ∧ (∀ k ∈ ks, w.ticks ≤ k ∧ k + 1 < w'.ticks) ∧
      ts = ks.map (fun k => clock (k + 1) - clock k) ∧ w.ticks ≤ w'.ticks := by
  induction xs generalizing w ys ts with
  | nil =>
    simp only [evalFunc, Prod.mk.injEq, Except.ok.injEq] at h
    obtain ⟨rfl, rfl, rfl⟩ := h
    exact ⟨[], by simp, by simp, rfl, le_refl _⟩
  | cons x xs ih =>
    unfold evalFunc at h
    cases ho : obj w.calls.length x with
    | error e => simp [ho] at h
    | ok y =>
      simp only [ho] at h
      rcases hr : evalFunc obj clock xs { calls := w.calls ++ [(x, .ok y)], ticks := w.ticks + 2 }
        with ⟨w1, r⟩
      rw [hr] at h
      cases r with
      | error e => simp at h
      | ok p =>
        obtain ⟨ys1, ts1⟩ := p
        simp only [Prod.mk.injEq, Except.ok.injEq] at h
        obtain ⟨rfl, rfl, rfl⟩ := h
        obtain ⟨ks, h1, h2, h3, h4⟩ := ih hr
        simp only at h2 h4
        refine ⟨w.ticks :: ks, ?_, ?_, by simp [h3], by omega⟩
        · rw [List.pairwise_cons]
          exact ⟨fun k hk => by have := (h2 k hk).1; omega, h1⟩
        · intro k hk
          rcases List.mem_cons.1 hk with rfl | hk
          · exact ⟨le_refl _, by omega⟩
          · have := h2 k hk; omega

/-- The cost model of an optimizer holds the locations given to the objective, in order, and for each
of them the logarithm of the time between two consecutive readings of the clock. -/
def CostRec (env : BOEnv) (s : BOState) : Prop :=
  s.cost.kind = .evaluationTime ∧ ∃ ks : List Nat, ks.Pairwise (· < ·) ∧
    (∀ k ∈ ks, k + 1 < s.world.ticks) ∧ ks.length = s.world.calls.length ∧
    ((s.cost.numUpdates = 0 ∧ s.world.calls = []) ∨ (s.cost.numUpdates ≠ 0 ∧
      s.cost.data = some (s.world.calls.map Prod.fst,
        ks.map fun k => env.lg (env.clock (k + 1) - env.clock k))))

theorem costRec_eval {env : BOEnv} {obj : Nat → Vec → Py ℚ} {s : BOState} (h : CostRec env s)
    {m : Mat} {w : World} {ys ts : Vec} (he : evalFunc obj env.clock m s.world = (w, .ok (ys, ts)))
    {fit : Py Unit} {c : CostModel} {r : Py Unit}
    (hc : s.cost.update env.lg fit m (.list ts) = (c, r)) {t : BOState} (hw : t.world.calls = w.calls)
    (hti : w.ticks ≤ t.world.ticks) (htc : t.cost = c) : CostRec env t := by
  obtain ⟨hk, ks, h1, h2, h3, h4⟩ := h
  obtain ⟨ks', g1, g2, g3, g4⟩ := evalFunc_times he
  obtain ⟨e1, e2, e3⟩ := evalFunc_ok he
  have hreg : CostCall.Regular ⟨m, .list ts, fit⟩ := ⟨e2, by simp⟩
  have hX : (m.map id).length = m.length := by simp
  have hstep := update_regular (lg := env.lg) (X := s.world.calls.map Prod.fst)
    (L := ks.map fun k => env.lg (env.clock (k + 1) - env.clock k)) hk hreg (by simp [h3])
    (by
      rcases h4 with ⟨a, b⟩ | ⟨a, b⟩
      · left; refine ⟨a, by simp [b], ?_⟩
        have : ks = [] := by rw [b] at h3; simpa using h3
        simp [this]
      · exact Or.inr ⟨a, b⟩)
  simp only at hstep
  rw [hc] at hstep
  simp only [Prod.mk.injEq] at hstep
  refine ⟨by rw [htc, hstep.1], ks ++ ks', ?_, ?_, ?_, Or.inr ⟨?_, ?_⟩⟩
  · rw [List.pairwise_append]
    refine ⟨h1, g1, ?_⟩
    intro a ha b hb
    have := h2 a ha
    have := (g2 b hb).1
    omega
  · intro k hk
    rcases List.mem_append.1 hk with hk | hk
    · have := h2 k hk; omega
    · have := (g2 k hk).2; omega
  · rw [hw, e3, List.length_append, List.length_append, h3]
    congr 1
    have : ts.length = ks'.length := by rw [g3]; simp
    simp [callsOf, e1]
    omega
  · rw [htc, hstep.1]; simp
  · rw [htc, hstep.1, hw, e3]
    have hcm : (callsOf m ys).map Prod.fst = m := by
      unfold callsOf
      rw [List.map_fst_zip]
      simp [e1]
    simp only [CostCall.times, List.map_append, hcm, g3, List.map_map]
    rfl

theorem boRound_cost {env : BOEnv} {obj : Nat → Vec → Py ℚ} {mi mt : Limit} {eps : ℚ}
    {s s' : BOState} (h : boRound env obj mi mt eps s = .next s') (hc : CostRec env s) :
    CostRec env s' := by
  unfold boRound at h
  split_ifs at h with ht
  rcases hu : updateModel env s with ⟨s1, r⟩
  rw [hu] at h
  cases r with
  | error e => cases e <;> simp at h
  | ok u =>
    obtain ⟨p, hs1⟩ := updateModel_ok hu
    simp only at h
    split_ifs at h with hstop
    cases hsu : env.suggest s1 none none with
    | error e => simp [hsu] at h
    | ok m =>
      simp only [hsu] at h
      rcases he : evaluateObjective env obj { s1 with X := s1.X ++ m } m with ⟨s2, r⟩
      rw [he] at h
      cases r with
      | error e => simp at h
      | ok u =>
        simp only [Round.next.injEq] at h
        obtain ⟨Y, ys, ts, w, c, hY, hlen, hev, hcu, hcalls, hs2⟩ := evaluateObjective_ok he
        have hc1 : CostRec env { s1 with X := s1.X ++ m } := by
          subst hs1; exact hc
        refine costRec_eval hc1 hev hcu (t := s') ?_ ?_ ?_
        · subst h; subst hs2; rfl
        · subst h; subst hs2; simp
        · subst h; subst hs2; rfl

theorem trace_cost {env : BOEnv} {obj : Nat → Vec → Py ℚ} {mi mt : Limit} {eps : ℚ}
    {s s' : BOState} {bs : List (Mat × Vec)} (h : Trace env obj mi mt eps s bs s')
    (hc : CostRec env s) : CostRec env s' := by
  induction h with
  | nil s => exact hc
  | cons hr _ _ ih => exact ih (boRound_cost hr hc)

theorem runStart_cost {env : BOEnv} {obj : Nat → Vec → Py ℚ} {a : RunArgs} {s s0 : BOState}
    (h : runStart env obj a s = (s0, .ok ())) (hc : CostRec env s) : CostRec env s0 := by
  unfold runStart at h
  simp only at h
  cases hY : s.Y with
  | some Y =>
    simp only [hY, Prod.mk.injEq, and_true] at h
    subst h
    obtain ⟨h1, ks, h2, h3, h4⟩ := hc
    exact ⟨h1, ks, h2, fun k hk => by have := h3 k hk; simp; omega, h4⟩
  | none =>
    simp only [hY] at h
    rcases he : evalFunc obj env.clock s.X s.world with ⟨w, r⟩
    rw [he] at h
    cases r with
    | error e => simp at h
    | ok p =>
      obtain ⟨ys, ts⟩ := p
      simp only at h
      rw [if_pos hc.1] at h
      rcases hcu : s.cost.update env.lg (env.costFit
          { s with params := none, context := a.context, world := w, Y := some ys }) s.X
          (.list ts) with ⟨c, r⟩
      rw [hcu] at h
      cases r with
      | error e => simp at h
      | ok u =>
        simp only [Prod.mk.injEq, and_true] at h
        exact costRec_eval hc he hcu (by subst h; rfl) (by subst h; simp) (by subst h; rfl)

theorem costRec_op {env : BOEnv} {s : BOState} (hc : CostRec env s) (op : Op)
    (ho : op.Completes env s) : CostRec env (op.after env s) := by
  cases op with
  | suggest c p i =>
    obtain ⟨ps, fs, hs⟩ := suggest_frame (env := env) (c := c) (p := p) (i := i) (s := s)
    simp only [Op.after, hs]
    exact hc
  | run a fuel =>
    obtain ⟨why, hw⟩ := ho
    have hrun : runOptimization env a fuel s = ((runOptimization env a fuel s).1, .done why) := by
      rw [← hw]
    simp only [Op.after]
    generalize (runOptimization env a fuel s).1 = s' at hrun ⊢
    obtain ⟨obj, s0, bs, sk, s2, Y, r, -, hst, -, htr, -, hsp, -, -, rfl⟩ := runOptimization_done hrun
    have h1 := trace_cost htr (runStart_cost hst hc)
    obtain ⟨ps, fs, rfl⟩ := hsp.frame
    exact h1

/-- C51 in the loop of a `BO` object created with `cost='evaluation_time'`: after any sequence of
completed calls, if the objective has been called, the cost model holds the locations the objective was
called at, in order, and for each the logarithm of a difference of two consecutive readings of the
clock, taken at increasing times. -/
theorem C51_loop_cost_data (env : BOEnv) (X0 : Mat) (Y0 : Option Vec) (ops : List Op)
    (hc : AllComplete env ops (boInit X0 Y0 (.str "evaluation_time"))) :
    let s := afterAll env ops (boInit X0 Y0 (.str "evaluation_time"))
    s.world.calls ≠ [] →
    ∃ ks : List Nat, ks.Pairwise (· < ·) ∧ ks.length = s.world.calls.length ∧
      s.cost.data = some (s.world.calls.map Prod.fst,
        ks.map fun k => env.lg (env.clock (k + 1) - env.clock k)) := by
  have key : ∀ (ops : List Op) (s : BOState), CostRec env s → AllComplete env ops s →
      CostRec env (afterAll env ops s) := by
    intro ops
    induction ops with
    | nil => exact fun s h _ => h
    | cons op ops ih => exact fun s h ho => ih _ (costRec_op h op ho.1) ho.2
  intro s hne
  obtain ⟨-, ks, h1, -, h3, h4⟩ := key ops _
    (⟨rfl, [], by simp, by simp, rfl, Or.inl ⟨rfl, rfl⟩⟩ : CostRec env (boInit X0 Y0 (.str "evaluation_time"))) hc
  refine ⟨ks, h1, h3, ?_⟩
  rcases h4 with ⟨-, h⟩ | ⟨-, h⟩
  · exact absurd h hne
  · exact h

/-- A run of two iterations completes and records four locations with unit times. -/
example : ((designSpace exLine none).map fun sp =>
      let r := runOptimization (exBO sp) { maxIter := some (.fin 2) } 10
        (boInit [[0], [1]] none (.str "evaluation_time"))
      (r.2, r.1.cost.data))
    = .ok (.done .limit, some ([[0], [1], [1/3], [1/4]], [1, 1, 1, 1])) := by
  decide +kernel

/-! ## C52 -/

/-- The cost models of a `BayesianOptimization` object after a sequence of updates. -/
def bayesCostAfter (lg : ℚ → ℚ) : List CostCall → BayesCost → BayesCost
  | [], b => b
  | u :: us, b => bayesCostAfter lg us (b.update lg u.fit u.x u.t).1

theorem bayesCostAfter_eq (lg : ℚ → ℚ) (us : List CostCall) (a : CostArg) :
    bayesCostAfter lg us (bayesCostInit a) = bayesCostInit a := by
  have : ∀ u : CostCall, ((bayesCostInit a).update lg u.fit u.x u.t).1 = bayesCostInit a := fun u => rfl
  induction us with
  | nil => rfl
  | cons u us ih => simp only [bayesCostAfter, this, ih]

/-- C52 (negation). With `cost_withGradients='evaluation_time'`, after any sequence of evaluations,
neither cost model holds any data and evaluating the cost in the acquisition raises. -/
theorem C52_evaluation_time_counterexample (lg : ℚ → ℚ) (us : List CostCall)
    (gp : Mat × Vec → (Nat → ℝ) → ℝ × (Nat → ℝ)) (user : (Nat → ℝ) → Py (ℝ × (Nat → ℝ)))
    (x : Nat → ℝ) :
    let b := bayesCostAfter lg us (bayesCostInit (.str "evaluation_time"))
    b.acquisition.data = none ∧ b.loop.data = none ∧
    b.acquisition.costWithGradients gp user x = .error .attributeError := by
  simp only [bayesCostAfter_eq]
  refine ⟨rfl, rfl, ?_⟩
  unfold CostModel.costWithGradients
  simp [bayesCostInit, costModelInit]

/-- C52 (partial: given costs only). Without cost the acquisition uses the constant 1 with gradient 0,
and with a cost function it uses that function, after any history. -/
theorem C52_given_cost_partial (lg : ℚ → ℚ) (us : List CostCall)
    (gp : Mat × Vec → (Nat → ℝ) → ℝ × (Nat → ℝ)) (user : (Nat → ℝ) → Py (ℝ × (Nat → ℝ)))
    (x : Nat → ℝ) :
    (bayesCostAfter lg us (bayesCostInit .none)).acquisition.costWithGradients gp user x
      = .ok (1, fun _ => 0) ∧
    (bayesCostAfter lg us (bayesCostInit .function)).acquisition.costWithGradients gp user x = user x := by
  simp only [bayesCostAfter_eq]
  exact ⟨rfl, rfl⟩

end GPyOpt.Props
