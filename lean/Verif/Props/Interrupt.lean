import Verif.Model.Interrupt
import Verif.Props.Resume
import Verif.Props.ParallelRun

/-!
# Property C167: interrupting an optimization
-/

namespace GPyOpt

/-! ## The moments of a round -/

theorem cost_update_kind (c : CostModel) (lg : ℚ → ℚ) (fit : Py Unit) (x : Mat) (t : CostEvals) :
    (c.update lg fit x t).1.kind = c.kind := by
  unfold CostModel.update
  split
  · simp only
    split_ifs
    · split
      · rfl
      · split_ifs <;> rfl
    · split
      · rfl
      · split
        · rfl
        · split_ifs <;> rfl
  · rfl

theorem costMoments_kind {c c' : CostModel} {lg : ℚ → ℚ} {fit : Py Unit} {x : Mat} {t : CostEvals}
    (h : c' ∈ c.moments lg fit x t) : c'.kind = c.kind := by
  unfold CostModel.moments at h
  split_ifs at h
  · rw [List.mem_singleton.1 h]
  · simp only [List.mem_cons, List.not_mem_nil, or_false] at h
    rcases h with rfl | rfl | rfl
    · rfl
    · rfl
    · exact cost_update_kind c lg fit x t

/-- While rows are evaluated, the function is called at these rows, in order. -/
theorem evalMoments_calls {obj : Nat → Vec → Py ℚ} {m : Mat} {w w' : World} (h : w' ∈ evalMoments obj m w) :
    ∃ extra, w'.calls = w.calls ++ extra ∧ extra.map Prod.fst <+: m := by
  induction m generalizing w with
  | nil =>
    simp only [evalMoments, List.mem_singleton] at h
    exact ⟨[], by simp [h], by simp⟩
  | cons x xs ih =>
    have one : ∀ (o : Py ℚ), ∃ extra, w.calls ++ [(x, o)] = w.calls ++ extra ∧ extra.map Prod.fst <+: x :: xs :=
      fun o => ⟨[(x, o)], rfl, by simp⟩
    simp only [evalMoments, List.cons_append, List.nil_append, List.mem_cons] at h
    rcases h with rfl | rfl | rfl | h
    · exact ⟨[], by simp, by simp⟩
    · exact ⟨[], by simp, by simp⟩
    · exact one _
    · cases ho : obj w.calls.length x with
      | error e =>
        rw [ho] at h
        simp only [List.mem_cons, List.not_mem_nil, or_false] at h
        subst h
        exact one _
      | ok y =>
        rw [ho] at h
        simp only [List.mem_cons] at h
        rcases h with rfl | h
        · exact one _
        · obtain ⟨extra, h1, h2⟩ := ih h
          refine ⟨(x, .ok y) :: extra, by simp [h1], ?_⟩
          simpa using h2

theorem updateMoments_frame {env : BOEnv} {s s' : BOState} (h : s' ∈ updateMoments env s) :
    ∃ ps fs, s' = { s with params := ps, fits := fs } := by
  have hlast : ∃ ps fs, (updateModel env s).1 = { s with params := ps, fits := fs } := by
    obtain ⟨ps, fs, h⟩ := updateModel_frame (r := (updateModel env s).2) (s1 := (updateModel env s).1) (s := s) rfl
    exact ⟨ps, _, h⟩
  unfold updateMoments at h
  split_ifs at h
  · split at h
    · simp only [List.mem_cons, List.not_mem_nil, or_false] at h
      rcases h with rfl | rfl | rfl
      · exact ⟨_, _, rfl⟩
      · exact ⟨_, _, rfl⟩
      · exact hlast
    · rw [List.mem_singleton.1 h]
      exact ⟨_, _, rfl⟩
  · simp only [List.mem_cons, List.not_mem_nil, or_false] at h
    rcases h with rfl | rfl
    · exact ⟨_, _, rfl⟩
    · exact hlast

/-- A moment `s'` of a round that starts in `t`: the locations `batch` have been added, and the calls `extra` made. -/
structure During (t s' : BOState) (batch : Mat) (extra : List (Vec × Py ℚ)) : Prop where
  X : s'.X = t.X ++ batch
  Y : s'.Y = t.Y
  calls : s'.world.calls = t.world.calls ++ extra
  rows : extra.map Prod.fst <+: batch
  context : s'.context = t.context
  results : s'.results = t.results
  kind : s'.cost.kind = t.cost.kind

theorem During.start {t s' : BOState} (hX : s'.X = t.X) (hY : s'.Y = t.Y) (hc : s'.world.calls = t.world.calls)
    (hcon : s'.context = t.context) (hr : s'.results = t.results) (hk : s'.cost.kind = t.cost.kind) :
    During t s' [] [] :=
  ⟨by simp [hX], hY, by simp [hc], by simp, hcon, hr, hk⟩

/-- The round adds `batch`, whether it succeeds or raises. -/
def Adds (r : Round) (t : BOState) (batch : Mat) : Prop :=
  ∃ u, (r = .next u ∨ ∃ e, r = .raised u e) ∧ u.X = t.X ++ batch

variable {env : BOEnv} {obj : Nat → Vec → Py ℚ} {mi mt : Limit} {eps : ℚ}

theorem roundMoments_during {s s' : BOState} (h : s' ∈ roundMoments env obj mi mt eps s) :
    (∃ batch extra, During s s' batch extra ∧ (batch = [] ∨ Adds (boRound env obj mi mt eps s) s batch)) ∨
    ∃ t, boRound env obj mi mt eps s = .next t ∧ During t s' [] [] := by
  unfold roundMoments at h
  unfold boRound
  split_ifs at h with ht
  · rw [if_pos ht]
    rw [List.mem_append] at h
    rcases h with h | h
    · obtain ⟨ps, fs, rfl⟩ := updateMoments_frame h
      exact Or.inl ⟨[], [], During.start rfl rfl rfl rfl rfl rfl, Or.inl rfl⟩
    · rcases hu : updateModel env s with ⟨s1, r⟩
      rw [hu] at h
      cases r with
      | error e => simp at h
      | ok u =>
        simp only at h ⊢
        split_ifs at h with hstop
        · simp at h
        · rw [if_neg hstop]
          cases hsu : env.suggest s1 none none with
          | error e => simp [hsu] at h
          | ok m =>
            simp only [hsu] at h ⊢
            obtain ⟨ps, fs, hs1⟩ := updateModel_frame hu
            have hadd : Adds (match evaluateObjective env obj { s1 with X := s1.X ++ m } m with
                | (s2, .error e) => Round.raised s2 e
                | (s2, .ok ()) => .next { s2 with
                    cumTime := env.clock s2.world.ticks - s2.timeZero
                    world := { s2.world with ticks := s2.world.ticks + 1 }
                    numAcq := s2.numAcq + 1 }) s m := by
              rcases he : evaluateObjective env obj { s1 with X := s1.X ++ m } m with ⟨s2, r⟩
              obtain ⟨f1, -⟩ := evaluateObjective_frame he
              have hX : s2.X = s.X ++ m := by rw [f1, hs1]
              cases r with
              | error e => exact ⟨s2, Or.inr ⟨e, rfl⟩, hX⟩
              | ok u => exact ⟨_, Or.inl rfl, hX⟩
            rw [List.mem_append] at h
            rcases h with h | h
            · unfold evaluateMoments at h
              rw [List.mem_append] at h
              rcases h with h | h
              · obtain ⟨w, hw, rfl⟩ := List.mem_map.1 h
                obtain ⟨extra, h1, h2⟩ := evalMoments_calls hw
                refine Or.inl ⟨m, extra, ⟨?_, ?_, ?_, h2, ?_, ?_, ?_⟩, Or.inr hadd⟩
                · simp [hs1]
                · simp [hs1]
                · rw [h1]; simp [hs1]
                · simp [hs1]
                · simp [hs1]
                · simp [hs1]
              · rcases hev : evalFunc obj env.clock m s1.world with ⟨w, r⟩
                rw [hev] at h
                cases r with
                | error e => simp at h
                | ok p =>
                  obtain ⟨ys, ts⟩ := p
                  simp only [List.mem_append, List.mem_map, List.mem_singleton] at h
                  obtain ⟨e1, -, e3⟩ := evalFunc_ok hev
                  have hrows : (callsOf m ys).map Prod.fst <+: m := by
                    unfold callsOf
                    rw [List.map_fst_zip (by simp [e1])]
                  rcases h with ⟨c, hc, rfl⟩ | rfl
                  · refine Or.inl ⟨m, callsOf m ys, ⟨?_, ?_, ?_, hrows, ?_, ?_, ?_⟩, Or.inr hadd⟩
                    · simp [hs1]
                    · simp [hs1]
                    · rw [e3]; simp [hs1]
                    · simp [hs1]
                    · simp [hs1]
                    · rw [costMoments_kind hc]; simp [hs1]
                  · rcases he : evaluateObjective env obj { s1 with X := s1.X ++ m } m with ⟨s2, r⟩
                    cases r with
                    | ok u =>
                      exact Or.inr ⟨_, rfl, During.start rfl rfl rfl rfl rfl rfl⟩
                    | error e =>
                      rw [he] at hadd
                      refine Or.inl ⟨m, callsOf m ys, ?_, Or.inr hadd⟩
                      have h2 := he
                      unfold evaluateObjective at h2
                      simp only [hev] at h2
                      rcases hcu : s1.cost.update env.lg (env.costFit { s1 with X := s1.X ++ m }) m (.list ts) with ⟨c, r⟩
                      have hck : c.kind = s1.cost.kind := by
                        have := cost_update_kind s1.cost env.lg (env.costFit { s1 with X := s1.X ++ m }) m (.list ts)
                        rwa [hcu] at this
                      rw [hcu] at h2
                      cases r with
                      | error e' =>
                        simp only [Prod.mk.injEq] at h2
                        rw [← h2.1]
                        refine ⟨?_, ?_, ?_, hrows, ?_, ?_, ?_⟩
                        · simp [hs1]
                        · simp [hs1]
                        · rw [e3]; simp [hs1]
                        · simp [hs1]
                        · simp [hs1]
                        · simp [hck, hs1]
                      | ok u =>
                        cases hY : s1.Y with
                        | some Y => simp [hY] at h2
                        | none =>
                          simp only [hY, Prod.mk.injEq] at h2
                          rw [← h2.1]
                          refine ⟨?_, ?_, ?_, hrows, ?_, ?_, ?_⟩
                          · simp [hs1]
                          · rw [← hY]; simp [hs1]
                          · rw [e3]; simp [hs1]
                          · simp [hs1]
                          · simp [hs1]
                          · simp [hck, hs1]
            · rcases he : evaluateObjective env obj { s1 with X := s1.X ++ m } m with ⟨s2, r⟩
              rw [he] at h
              cases r with
              | error e => simp at h
              | ok u =>
                simp only [List.mem_cons, List.not_mem_nil, or_false] at h
                rcases h with rfl | rfl
                · exact Or.inr ⟨_, rfl, During.start rfl rfl rfl rfl rfl rfl⟩
                · exact Or.inr ⟨_, rfl, During.start rfl rfl rfl rfl rfl rfl⟩
  · rw [if_neg ht]
    rw [List.mem_singleton.1 h]
    exact Or.inl ⟨[], [], During.start rfl rfl rfl rfl rfl rfl, Or.inl rfl⟩

/-- A moment of the loop: some rounds have been completed, and a batch may be under way. -/
theorem loopMoments_during {fuel : Nat} {s s' : BOState} (h : s' ∈ loopMoments env obj mi mt eps fuel s) :
    ∃ bs t batch extra, Trace env obj mi mt eps s bs t ∧ bs.length ≤ fuel ∧
      boLoop env obj mi mt eps fuel s = boLoop env obj mi mt eps (fuel - bs.length) t ∧ During t s' batch extra ∧
      (batch = [] ∨ bs.length < fuel ∧ Adds (boRound env obj mi mt eps t) t batch) := by
  induction fuel generalizing s with
  | zero =>
    simp only [loopMoments, List.mem_singleton] at h
    subst h
    exact ⟨[], s', [], [], .nil _, by simp, rfl, During.start rfl rfl rfl rfl rfl rfl, Or.inl rfl⟩
  | succ fuel ih =>
    unfold loopMoments at h
    rw [List.mem_append] at h
    rcases h with h | h
    · rcases roundMoments_during h with ⟨batch, extra, hd, hb⟩ | ⟨t, ht, hd⟩
      · refine ⟨[], s, batch, extra, .nil _, by simp, rfl, hd, ?_⟩
        rcases hb with hb | hb
        · exact Or.inl hb
        · exact Or.inr ⟨by simp, hb⟩
      · obtain ⟨m, ys, hs⟩ := boRound_next ht
        refine ⟨[(m, ys)], t, [], [], .cons ht hs (.nil _), by simp, ?_, hd, Or.inl rfl⟩
        rw [boLoop.eq_2]
        simp only [ht, List.length_cons, List.length_nil]
        rfl
    · cases hr : boRound env obj mi mt eps s with
      | stop t why => simp [hr] at h
      | raised t e => simp [hr] at h
      | next t =>
        rw [hr] at h
        obtain ⟨bs, u, batch, extra, h1, h2, h3, h4, h5⟩ := ih h
        obtain ⟨m, ys, hs⟩ := boRound_next hr
        refine ⟨(m, ys) :: bs, u, batch, extra, .cons hr hs h1, by simp [h2], ?_, h4, ?_⟩
        · rw [boLoop.eq_2]
          simp only [hr, h3, List.length_cons]
          congr 1
          omega
        · rcases h5 with h5 | ⟨h5, h6⟩
          · exact Or.inl h5
          · exact Or.inr ⟨by simpa using h5, h6⟩

/-- The start of a run, for an object whose outputs are known. -/
theorem startMoments_during {a : RunArgs} {s s' : BOState} {Y : Vec} (hY : s.Y = some Y)
    (h : s' ∈ startMoments env obj a s) :
    s'.X = s.X ∧ s'.Y = s.Y ∧ s'.world.calls = s.world.calls ∧ s'.results = s.results ∧ s'.cost = s.cost := by
  unfold startMoments at h
  simp only [hY, List.cons_append, List.nil_append, List.mem_cons, List.not_mem_nil, or_false] at h
  rcases h with rfl | rfl | rfl | rfl | rfl | rfl <;> exact ⟨rfl, hY ▸ rfl, rfl, rfl, rfl⟩

/-! ## The last moment -/

theorem evalMoments_last (clock : Nat → ℚ) (m : Mat) (w : World) :
    (evalMoments obj m w).getLast? = some (evalFunc obj clock m w).1 := by
  induction m generalizing w with
  | nil => rfl
  | cons x xs ih =>
    unfold evalMoments evalFunc
    cases ho : obj w.calls.length x with
    | error e => simp
    | ok y =>
      have := ih { calls := w.calls ++ [(x, .ok y)], ticks := w.ticks + 2 }
      rcases hr : evalFunc obj clock xs { calls := w.calls ++ [(x, .ok y)], ticks := w.ticks + 2 } with ⟨w1, r1⟩
      rw [hr] at this
      simp only [List.getLast?_append, List.getLast?_cons, this]
      cases r1 <;> simp [hr]

theorem updateMoments_last (s : BOState) : (updateMoments env s).getLast? = some (updateModel env s).1 := by
  unfold updateMoments
  split_ifs with h
  · split
    · rfl
    · rename_i hx
      unfold updateModel
      rw [if_neg h.1, if_pos h.2]
      cases hu : env.sp.unzipInputs s.X with
      | error e => rfl
      | ok Xm =>
        cases hY : s.Y with
        | none => rfl
        | some Y => exact absurd hY (fun hY => hx Xm Y hu hY)
  · rfl

theorem evaluateMoments_last (s : BOState) (m : Mat) :
    (evaluateMoments env obj s m).getLast? = some (evaluateObjective env obj s m).1 := by
  unfold evaluateMoments
  rcases hr : evalFunc obj env.clock m s.world with ⟨w, r⟩
  cases r with
  | error e =>
    have := evalMoments_last (obj := obj) env.clock m s.world
    rw [hr] at this
    unfold evaluateObjective
    simp [hr, List.getLast?_map, this]
  | ok p =>
    obtain ⟨ys, ts⟩ := p
    simp [List.getLast?_append]

theorem roundMoments_last (s : BOState) :
    (roundMoments env obj mi mt eps s).getLast? = some (boRound env obj mi mt eps s).state := by
  unfold roundMoments boRound
  split_ifs with ht
  · rcases hu : updateModel env s with ⟨s1, r⟩
    have hlast := updateMoments_last (env := env) s
    rw [hu] at hlast
    cases r with
    | error e => cases e <;> simp [hlast, Round.state]
    | ok u =>
      simp only
      split_ifs with hstop
      · simp [hlast, Round.state]
      · cases hsu : env.suggest s1 none none with
        | error e => simp [hlast, Round.state]
        | ok m =>
          simp only
          have h2 := evaluateMoments_last (env := env) (obj := obj) { s1 with X := s1.X ++ m } m
          rcases he : evaluateObjective env obj { s1 with X := s1.X ++ m } m with ⟨s2, r⟩
          rw [he] at h2
          cases r with
          | error e => simp [List.getLast?_append, h2, Round.state]
          | ok u => simp [List.getLast?_append, Round.state]
  · rfl

theorem loopMoments_last (fuel : Nat) (s : BOState) :
    (loopMoments env obj mi mt eps fuel s).getLast? = some (boLoop env obj mi mt eps fuel s).1 := by
  induction fuel generalizing s with
  | zero => rfl
  | succ fuel ih =>
    unfold loopMoments boLoop
    have h := roundMoments_last (env := env) (obj := obj) (mi := mi) (mt := mt) (eps := eps) s
    cases hr : boRound env obj mi mt eps s with
    | stop t why => rw [hr] at h; simp [h, Round.state]
    | raised t e => rw [hr] at h; simp [h, Round.state]
    | next t => simp [List.getLast?_append, ih t]

theorem costMoments_last (c : CostModel) (lg : ℚ → ℚ) (fit : Py Unit) (x : Mat) (t : CostEvals) :
    (c.moments lg fit x t).getLast? = some (c.update lg fit x t).1 := by
  unfold CostModel.moments
  split_ifs with h
  · rw [List.getLast?_singleton]
    congr 1
    unfold CostModel.update at h ⊢
    split at h
    · simp only at h ⊢
      split_ifs at h ⊢ with h0
      · split at h
        · simp at h
        · split_ifs at h <;> simp at h
      · split at h
        · rfl
        · split at h
          · rfl
          · split_ifs at h <;> simp at h
    · rfl
  · rfl

theorem startMoments_last (a : RunArgs) (s : BOState) :
    (startMoments env obj a s).getLast? = some (runStart env obj a s).1 := by
  unfold startMoments runStart
  cases hY : s.Y with
  | some Y => rfl
  | none =>
    have h1 := evalMoments_last (obj := obj) env.clock s.X s.world
    rcases hr : evalFunc obj env.clock s.X s.world with ⟨w, r⟩
    rw [hr] at h1
    simp only [hr]
    cases r with
    | error e => simp [List.getLast?_cons, List.getLast?_map, h1]
    | ok p =>
      obtain ⟨ys, ts⟩ := p
      simp only
      split_ifs with hk
      · have h2 := costMoments_last s.cost env.lg
          (env.costFit { s with params := none, context := a.context, world := w, Y := some ys }) s.X (.list ts)
        rcases hc : s.cost.update env.lg
          (env.costFit { s with params := none, context := a.context, world := w, Y := some ys }) s.X (.list ts) with ⟨c, r⟩
        rw [hc] at h2
        cases r with
        | error e => simp [List.getLast?_append, List.getLast?_cons, List.getLast?_map, h2]
        | ok u => simp [List.getLast?_append, List.getLast?_cons]
      · simp [List.getLast?_append, List.getLast?_cons]

/-! ## Continuing after an interrupt -/

theorem boLoop_dataEnv (hI : env.interval = 1)
    {π : Option Context → Mat → Option Vec → Option (Mat × Vec) → Py Mat}
    (hπ : ∀ s, env.suggest s none none = π s.context s.X s.Y (s.fits.getLast?.map fun f => (f.X, f.Y)))
    (fuel : Nat) (s : BOState) :
    boLoop (dataEnv env π) obj mi mt eps fuel s = boLoop env obj mi mt eps fuel s := by
  induction fuel generalizing s with
  | zero => rfl
  | succ fuel ih =>
    unfold boLoop
    rw [boRound_dataEnv hI hπ]
    simp only [ih]

variable {f : Vec → Py ℚ}

/-- A loop that is at its `k`-th round, and one that starts with the same data and the remaining budget. -/
theorem loop_resume (hd : DataOnly env) (hI : env.interval = 1) {n k : Nat} (hk : k ≤ n) {fuel fuel' : Nat} (hf : fuel' ≤ fuel)
    {t u e : BOState} {why : Stop} (hX : u.X = t.X) (hY : u.Y = t.Y) (hc : u.context = t.context)
    (hkt : t.cost.kind ≠ .evaluationTime) (hku : u.cost.kind ≠ .evaluationTime) (hnt : t.numAcq = k) (hnu : u.numAcq = 0)
    (h : boLoop env (fun _ x => f x) (.fin n) .inf eps fuel' t = (e, .done why)) :
    ∃ e', boLoop env (fun _ x => f x) (.fin (n - k : Nat)) .inf eps fuel u = (e', .done why) ∧ e'.X = e.X ∧ e'.Y = e.Y := by
  obtain ⟨h1, h2⟩ := boLoop_sim (T := False) (obj := fun _ x => f x) (mi := .fin n) (mi' := .fin (n - k : Nat)) (mt := .inf)
    (eps := eps) hd fuel' (s := t) (t := { t with numAcq := 0 })
    { X := rfl, Y := rfl, calls := rfl, context := rfl, cost := rfl, kind := hkt, time := fun h => h.elim } (Or.inl hI)
    (fun j => by
      simp only [Limit.exceeds, Nat.cast_lt, decide_eq_decide, hnt]
      omega) (Or.inl rfl)
  obtain ⟨h3, h4⟩ := boLoop_same (f := f) (eps := eps) (mi := .fin (n - k : Nat)) hd fuel' (s := u) (t := { t with numAcq := 0 })
    ⟨hX, hY, hc, hnu, hku, hkt⟩
  rw [h] at h1 h2
  have hdone : (boLoop env (fun _ x => f x) (.fin (n - k : Nat)) .inf eps fuel' u).2 = .done why := by rw [h4, ← h2]
  rw [boLoop_fuel (by rw [hdone]; simp) hf]
  exact ⟨_, Prod.ext rfl hdone, h3.X.trans h1.X.symm, h3.Y.trans h1.Y.symm⟩

theorem run_resume (hobj : env.obj = some fun _ x => f x) {a : RunArgs} {fuel : Nat} {u u0 e : BOState} {why : Stop} {Y : Vec}
    {r : Results} (hst : runStart env (fun _ x => f x) a u = (u0, .ok ()))
    (h : ∃ e', boLoop env (fun _ x => f x) a.limits.1 a.limits.2 a.eps fuel u0 = (e', .done why) ∧ e'.X = e.X ∧ e'.Y = e.Y)
    (hY : e.Y = some Y) (hr : computeResults e.X Y = .ok r) :
    ∃ t, runOptimization env a fuel u = (t, .done why) ∧ t.X = e.X ∧ t.Y = e.Y ∧ t.results = some r := by
  obtain ⟨e', h1, h2, h3⟩ := h
  unfold runOptimization
  simp only [hobj, hst, h1, h3, hY, h2, hr]
  exact ⟨_, rfl, rfl, rfl, rfl⟩

theorem trace_kind {s t : BOState} {bs : List (Mat × Vec)} (ht : Trace env obj mi mt eps s bs t)
    (hk : s.cost.kind ≠ .evaluationTime) : t.cost.kind ≠ .evaluationTime := by
  induction ht with
  | nil s => exact hk
  | cons hr hs ht ih =>
    obtain ⟨ts, c', hc⟩ := hs.cost
    rw [update_other hk] at hc
    injection hc with hc
    exact ih (hc ▸ hk)

theorem trace_budget {n : Nat} {s t : BOState} {bs : List (Mat × Vec)} (ht : Trace env obj (.fin n) mt eps s bs t)
    (h0 : s.numAcq = 0) {Y : Vec} (hY : s.Y = some Y) : bs.length ≤ n := by
  rcases Nat.eq_zero_or_pos bs.length with h | h
  · omega
  · obtain ⟨si, si', h1, h2, -, -⟩ := ht.split (i := bs.length - 1) (by omega)
    obtain ⟨-, -, -, -, -, d6, -⟩ := h1.data hY
    have := h2.budget
    simp only [Limit.exceeds, Nat.cast_lt, decide_eq_true_eq] at this
    rw [d6, h0, List.length_take] at this
    omega

theorem trace_rows {s t : BOState} {bs : List (Mat × Vec)} (ht : Trace env obj mi mt eps s bs t) {b : Nat}
    (hb : ∀ s m, env.suggest s none none = .ok m → m.length = b) : (batchRows bs).length = bs.length * b := by
  induction ht with
  | nil s => simp [batchRows]
  | @cons s s1 s' m ys bs hr hs ht ih =>
    rw [show batchRows ((m, ys) :: bs) = m ++ batchRows bs by simp [batchRows], List.length_append, ih,
      hb _ _ hs.suggested, List.length_cons]
    ring

/-- The start of a run, for an object whose initial locations have not been evaluated. -/
theorem startMoments_none {a : RunArgs} {s s' : BOState} (hY : s.Y = none) (h : s' ∈ startMoments env obj a s) :
    s'.X = s.X ∧ s'.results = s.results ∧ s'.cost.kind = s.cost.kind ∧
    ((s'.Y = none ∧ ∃ extra, s'.world.calls = s.world.calls ++ extra ∧ extra.map Prod.fst <+: s.X) ∨
      ∃ ys ts w, evalFunc obj env.clock s.X s.world = (w, .ok (ys, ts)) ∧ s'.Y = some ys ∧ s'.world.calls = w.calls) := by
  unfold startMoments at h
  simp only [hY, List.cons_append, List.nil_append, List.mem_cons, List.mem_append, List.mem_map] at h
  have nothing : ∃ extra, s.world.calls = s.world.calls ++ extra ∧ extra.map Prod.fst <+: s.X := ⟨[], by simp, by simp⟩
  rcases h with rfl | rfl | rfl | ⟨w, hw, rfl⟩ | h
  · exact ⟨rfl, rfl, rfl, Or.inl ⟨hY, nothing⟩⟩
  · exact ⟨rfl, rfl, rfl, Or.inl ⟨rfl, nothing⟩⟩
  · exact ⟨rfl, rfl, rfl, Or.inl ⟨rfl, nothing⟩⟩
  · exact ⟨rfl, rfl, rfl, Or.inl ⟨rfl, evalMoments_calls hw⟩⟩
  · rcases he : evalFunc obj env.clock s.X s.world with ⟨w, r⟩
    rw [he] at h
    cases r with
    | error e => simp at h
    | ok p =>
      obtain ⟨ys, ts⟩ := p
      simp only at h
      split_ifs at h with hk
      · rw [List.mem_append] at h
        rcases h with h | h
        · obtain ⟨c, hc, rfl⟩ := List.mem_map.1 h
          exact ⟨rfl, rfl, costMoments_kind hc, Or.inr ⟨ys, ts, w, rfl, rfl, rfl⟩⟩
        · rcases hcu : s.cost.update env.lg
            (env.costFit { s with params := none, context := a.context, world := w, Y := some ys }) s.X (.list ts) with ⟨c, r⟩
          have hck : c.kind = s.cost.kind := by
            have := cost_update_kind s.cost env.lg
              (env.costFit { s with params := none, context := a.context, world := w, Y := some ys }) s.X (.list ts)
            rwa [hcu] at this
          rw [hcu] at h
          cases r with
          | error e => simp at h
          | ok u =>
            simp only [List.mem_cons, List.not_mem_nil, or_false] at h
            rcases h with rfl | rfl | rfl <;> exact ⟨rfl, rfl, hck, Or.inr ⟨ys, ts, w, rfl, rfl, rfl⟩⟩
      · simp only [List.mem_cons, List.not_mem_nil, or_false] at h
        rcases h with rfl | rfl | rfl | rfl <;> exact ⟨rfl, rfl, rfl, Or.inr ⟨ys, ts, w, rfl, rfl, rfl⟩⟩

/-- A moment of a run: of the start, or of the loop, or of the computation of the results. -/
theorem runMoments_cases {a : RunArgs} (hobj : env.obj = some obj) {fuel : Nat} {s : BOState} {mo : Moment}
    (h : mo ∈ runMoments env a fuel s) :
    (∃ s' ∈ startMoments env obj a s, mo = s'.moment) ∨
    ∃ s0, runStart env obj a s = (s0, .ok ()) ∧
      ((∃ s' ∈ loopMoments env obj a.limits.1 a.limits.2 a.eps fuel s0, mo = s'.moment) ∨
       ∃ e why Y r, boLoop env obj a.limits.1 a.limits.2 a.eps fuel s0 = (e, .done why) ∧ e.Y = some Y ∧
         computeResults e.X Y = .ok r ∧ mo ∈ resultMoments e r) := by
  unfold runMoments at h
  simp only [hobj, List.mem_append, List.mem_map] at h
  rcases h with ⟨s', h1, rfl⟩ | h
  · exact Or.inl ⟨s', h1, rfl⟩
  · rcases hst : runStart env obj a s with ⟨s0, r⟩
    rw [hst] at h
    cases r with
    | error e => simp at h
    | ok u =>
      refine Or.inr ⟨s0, rfl, ?_⟩
      simp only [List.mem_append, List.mem_map] at h
      rcases h with ⟨s', h1, rfl⟩ | h
      · exact Or.inl ⟨s', h1, rfl⟩
      · rcases hl : boLoop env obj a.limits.1 a.limits.2 a.eps fuel s0 with ⟨e, r⟩
        rw [hl] at h
        cases r with
        | raised e => simp at h
        | running => simp at h
        | done why =>
          simp only at h
          cases hY : e.Y with
          | none => simp [hY] at h
          | some Y =>
            simp only [hY] at h
            cases hr : computeResults e.X Y with
            | error e => simp [hr] at h
            | ok r =>
              simp only [hr] at h
              exact Or.inr ⟨e, why, Y, r, rfl, hY, hr, h⟩

theorem resultMoments_data {e : BOState} {r : Results} {mo : Moment} (h : mo ∈ resultMoments e r) :
    mo.state.X = e.X ∧ mo.state.Y = e.Y ∧ mo.state.world = e.world ∧ mo.state.cost = e.cost := by
  simp only [resultMoments, List.mem_cons, List.not_mem_nil, or_false] at h
  rcases h with rfl | rfl | rfl <;> exact ⟨rfl, rfl, rfl, rfl⟩

end GPyOpt

namespace GPyOpt.Props

open GPyOpt Spec

/-! ## What an interrupt leaves -/

/-- **C167.** The moments of a run end where the run ends: the last one is the object that `run_optimization` leaves, whether it
returns or raises. -/
theorem C167_last_moment (env : BOEnv) (a : RunArgs) (fuel : Nat) (s : BOState) :
    (runMoments env a fuel s).getLast? = some (runOptimization env a fuel s).1.moment := by
  unfold runMoments runOptimization
  cases hobj : env.obj with
  | none => rfl
  | some obj =>
    simp only
    have h1 := startMoments_last (env := env) (obj := obj) a s
    rcases hst : runStart env obj a s with ⟨s0, r⟩
    rw [hst] at h1
    cases r with
    | error e => simp [List.getLast?_map, h1]
    | ok u =>
      simp only
      have h2 := loopMoments_last (env := env) (obj := obj) (mi := a.limits.1) (mt := a.limits.2) (eps := a.eps) fuel s0
      rcases hl : boLoop env obj a.limits.1 a.limits.2 a.eps fuel s0 with ⟨e, r⟩
      rw [hl] at h2
      cases r with
      | raised x => simp [List.getLast?_append, List.getLast?_map, h2]
      | running => simp [List.getLast?_append, List.getLast?_map, h2]
      | done why =>
        simp only
        cases hY : e.Y with
        | none => simp [List.getLast?_append, List.getLast?_map, h2]
        | some Y =>
          simp only
          cases hr : computeResults e.X Y with
          | error x => simp [List.getLast?_append, List.getLast?_map, h2]
          | ok r => simp [List.getLast?_append, resultMoments, hY]

/-- **C167.** A run is interrupted at any moment. The object has the locations and outputs it had, those of the completed
evaluations (`newX`, `newY`: every output is at the index of its location, and is what the objective returned there), and at most
one batch of locations without outputs; the calls of the objective whose outputs are lost are at rows of this batch. -/
theorem C167_interrupted (env : BOEnv) (a : RunArgs) (fuel : Nat) (s : BOState) (Y : Vec) (hY : s.Y = some Y) (mo : Moment)
    (h : mo ∈ runMoments env a fuel s) :
    ∃ (newX batch : Mat) (newY : Vec) (extra : List (Vec × Py ℚ)),
      mo.state.X = s.X ++ newX ++ batch ∧ mo.state.Y = some (Y ++ newY) ∧ newX.length = newY.length ∧
      mo.state.world.calls = s.world.calls ++ List.zip newX (newY.map .ok) ++ extra ∧ extra.map Prod.fst <+: batch := by
  cases hobj : env.obj with
  | none =>
    simp only [runMoments, hobj, List.mem_singleton] at h
    subst h
    exact ⟨[], [], [], [], by simp [BOState.moment], by simp [BOState.moment, hY], rfl, by simp [BOState.moment], by simp⟩
  | some obj =>
    rcases runMoments_cases hobj h with ⟨s', h1, rfl⟩ | ⟨s0, hst, h1⟩
    · obtain ⟨g1, g2, g3, -, -⟩ := startMoments_during hY h1
      exact ⟨[], [], [], [], by simp [BOState.moment, g1], by simp [BOState.moment, g2, hY], rfl, by simp [BOState.moment, g3],
        by simp⟩
    · have hss := runStart_ok hst
      obtain ⟨Y0, new, hY0, hc0, hcase⟩ := hss.Y
      obtain ⟨rfl, rfl⟩ : Y0 = Y ∧ new = [] := by
        rcases hcase with ⟨g, g'⟩ | ⟨g, -⟩
        · rw [hY] at g; injection g with g; exact ⟨g.symm, g'⟩
        · rw [hY] at g; cases g
      rw [List.append_nil] at hc0
      rcases h1 with ⟨s', h1, rfl⟩ | ⟨e, why, Ye, r, hl, hYe, -, h1⟩
      · obtain ⟨bs, t, batch, extra, htr, -, -, hd, -⟩ := loopMoments_during h1
        obtain ⟨d1, d2, d3, d4, -⟩ := htr.data hY0
        refine ⟨batchRows bs, batch, batchVals bs, extra, ?_, ?_, d4.symm, ?_, hd.rows⟩
        · exact hd.X.trans (by rw [d1, hss.X])
        · exact hd.Y.trans d2
        · exact hd.calls.trans (by rw [d3, hc0]; rfl)
      · obtain ⟨g1, g2, g3, -⟩ := resultMoments_data h1
        obtain ⟨bs, sk, htr, -, hend⟩ := boLoop_trace hl
        obtain ⟨d1, d2, d3, d4, -⟩ := htr.data hY0
        obtain ⟨ps, fs, rfl⟩ := (boRound_stop hend).frame
        refine ⟨batchRows bs, [], batchVals bs, [], ?_, ?_, d4.symm, ?_, by simp⟩
        · rw [g1, List.append_nil, ← hss.X]; exact d1
        · rw [g2]; exact d2
        · rw [g3, List.append_nil]; exact d3.trans (by rw [hc0]; rfl)

/-- **C167.** The same for an object whose initial locations have not been evaluated: before all of them are, there is no output
at all, however many of them have been computed. -/
theorem C167_initial (env : BOEnv) (a : RunArgs) (fuel : Nat) (s : BOState) (hY : s.Y = none) (mo : Moment)
    (h : mo ∈ runMoments env a fuel s) :
    (mo.state.X = s.X ∧ mo.state.Y = none ∧
      ∃ extra, mo.state.world.calls = s.world.calls ++ extra ∧ extra.map Prod.fst <+: s.X) ∨
    ∃ (newX batch : Mat) (Y newY : Vec) (extra : List (Vec × Py ℚ)),
      mo.state.X = s.X ++ newX ++ batch ∧ mo.state.Y = some (Y ++ newY) ∧ s.X.length = Y.length ∧ newX.length = newY.length ∧
      mo.state.world.calls = s.world.calls ++ List.zip s.X (Y.map .ok) ++ List.zip newX (newY.map .ok) ++ extra ∧
      extra.map Prod.fst <+: batch := by
  cases hobj : env.obj with
  | none =>
    simp only [runMoments, hobj, List.mem_singleton] at h
    subst h
    exact Or.inl ⟨rfl, hY, [], by simp [BOState.moment], by simp⟩
  | some obj =>
    rcases runMoments_cases hobj h with ⟨s', h1, rfl⟩ | ⟨s0, hst, h1⟩
    · obtain ⟨g1, -, -, ⟨g2, g3⟩ | ⟨ys, ts, w, g2, g3, g4⟩⟩ := startMoments_none hY h1
      · exact Or.inl ⟨g1, g2, g3⟩
      · obtain ⟨k1, -, k3⟩ := evalFunc_ok g2
        refine Or.inr ⟨[], [], ys, [], [], ?_, ?_, k1.symm, rfl, ?_, by simp⟩
        · simp [BOState.moment, g1]
        · simp [BOState.moment, g3]
        · simp only [BOState.moment, g4, k3]
          simp [callsOf]
    · have hss := runStart_ok hst
      obtain ⟨Y0, new, hY0, hc0, hcase⟩ := hss.Y
      obtain ⟨rfl, hlen⟩ : new = callsOf s.X Y0 ∧ Y0.length = s.X.length := by
        rcases hcase with ⟨g, g'⟩ | ⟨-, g⟩
        · rw [hY] at g; cases g
        · exact g
      rcases h1 with ⟨s', h1, rfl⟩ | ⟨e, why, Ye, r, hl, hYe, -, h1⟩
      · obtain ⟨bs, t, batch, extra, htr, -, -, hd, -⟩ := loopMoments_during h1
        obtain ⟨d1, d2, d3, d4, -⟩ := htr.data hY0
        refine Or.inr ⟨batchRows bs, batch, Y0, batchVals bs, extra, ?_, ?_, hlen.symm, d4.symm, ?_, hd.rows⟩
        · exact hd.X.trans (by rw [d1, hss.X])
        · exact hd.Y.trans d2
        · exact hd.calls.trans (by rw [d3, hc0]; rfl)
      · obtain ⟨g1, g2, g3, -⟩ := resultMoments_data h1
        obtain ⟨bs, sk, htr, -, hend⟩ := boLoop_trace hl
        obtain ⟨d1, d2, d3, d4, -⟩ := htr.data hY0
        obtain ⟨ps, fs, rfl⟩ := (boRound_stop hend).frame
        refine Or.inr ⟨batchRows bs, [], Y0, batchVals bs, [], ?_, ?_, hlen.symm, d4.symm, ?_, by simp⟩
        · rw [g1, List.append_nil, ← hss.X]; exact d1
        · rw [g2]; exact d2
        · rw [g3, List.append_nil]; exact d3.trans (by rw [hc0]; rfl)

/-- **C167.** The data of an interrupted run are those of the run without the interrupt, up to a point: its locations start with
the locations, and its outputs with the outputs. -/
theorem C167_prefix (env : BOEnv) (a : RunArgs) (fuel : Nat) (s t : BOState) (Y : Vec) (hY : s.Y = some Y) (r : RunResult)
    (ht : runOptimization env a fuel s = (t, r)) (mo : Moment) (h : mo ∈ runMoments env a fuel s) :
    mo.state.X <+: t.X ∧ ∃ Y' Yt, mo.state.Y = some Y' ∧ t.Y = some Yt ∧ Y' <+: Yt := by
  unfold runOptimization at ht
  cases hobj : env.obj with
  | none =>
    simp only [runMoments, hobj, List.mem_singleton] at h
    simp only [hobj, Prod.mk.injEq] at ht
    obtain ⟨rfl, -⟩ := ht
    subst h
    exact ⟨List.prefix_rfl, Y, Y, hY, hY, List.prefix_rfl⟩
  | some obj =>
    simp only [hobj] at ht
    have hstok : ∃ s0, runStart env obj a s = (s0, .ok ()) := by
      unfold runStart
      simp only [hY]
      exact ⟨_, rfl⟩
    obtain ⟨s0, hst⟩ := hstok
    simp only [hst] at ht
    have hss := runStart_ok hst
    obtain ⟨Y0, new, hY0, -, hcase⟩ := hss.Y
    obtain rfl : Y0 = Y := by
      rcases hcase with ⟨g, -⟩ | ⟨g, -⟩
      · rw [hY] at g; injection g with g; exact g.symm
      · rw [hY] at g; cases g
    rcases hl : boLoop env obj a.limits.1 a.limits.2 a.eps fuel s0 with ⟨e, q⟩
    have hend : t.X = e.X ∧ t.Y = e.Y := by
      rw [hl] at ht
      cases q with
      | raised x => simp only [Prod.mk.injEq] at ht; rw [← ht.1]; exact ⟨rfl, rfl⟩
      | running => simp only [Prod.mk.injEq] at ht; rw [← ht.1]; exact ⟨rfl, rfl⟩
      | done why =>
        simp only at ht
        cases hYe : e.Y with
        | none =>
          simp only [hYe, Prod.mk.injEq] at ht
          rw [← ht.1]
          exact ⟨rfl, hYe⟩
        | some Ye =>
          simp only [hYe] at ht
          cases hr : computeResults e.X Ye with
          | error x => simp only [hr, Prod.mk.injEq] at ht; rw [← ht.1]; exact ⟨rfl, hYe⟩
          | ok r => simp only [hr, Prod.mk.injEq] at ht; rw [← ht.1]; exact ⟨rfl, rfl⟩
    obtain ⟨p1, ⟨Ye, p2, p3⟩, -⟩ := boLoop_prefix hl hY0
    rw [hend.1, hend.2]
    rcases runMoments_cases hobj h with ⟨s', h1, rfl⟩ | ⟨s0', hst', h1⟩
    · obtain ⟨g1, g2, -⟩ := startMoments_during hY h1
      exact ⟨by simp only [BOState.moment, g1]; rw [← hss.X]; exact p1, Y0, Ye, by simp only [BOState.moment, g2, hY], p2, p3⟩
    · rw [hst, Prod.mk.injEq] at hst'
      obtain ⟨rfl, -⟩ := hst'
      rcases h1 with ⟨s', h1, rfl⟩ | ⟨e', why, Ye', r, hl', hYe, -, h1⟩
      · obtain ⟨bs, u, batch, extra, htr, hbs, hloop, hd, hb⟩ := loopMoments_during h1
        obtain ⟨d1, d2, -⟩ := htr.data hY0
        rw [hl] at hloop
        obtain ⟨q1, ⟨Yq, q2, q3⟩, -⟩ := boLoop_prefix hloop.symm d2
        refine ⟨?_, _, Yq, hd.Y.trans d2, q2, q3⟩
        simp only [BOState.moment, hd.X]
        rcases hb with rfl | ⟨hlt, v, hv, hvX⟩
        · rw [List.append_nil]; exact q1
        · obtain ⟨k, hk⟩ : ∃ k, fuel - bs.length = k + 1 := ⟨fuel - bs.length - 1, by omega⟩
          rw [hk] at hloop
          unfold boLoop at hloop
          rw [← hvX]
          rcases hv with hv | ⟨x, hv⟩
          · simp only [hv] at hloop
            obtain ⟨m, ys, hs⟩ := boRound_next hv
            obtain ⟨_, _, hvY⟩ := hs.Y
            exact (boLoop_prefix hloop.symm hvY).1
          · simp only [hv, Prod.mk.injEq] at hloop
            rw [hloop.1]
      · obtain ⟨g1, g2, -⟩ := resultMoments_data h1
        rw [hl, Prod.mk.injEq] at hl'
        obtain ⟨rfl, -⟩ := hl'
        exact ⟨by rw [g1], Ye, Ye, g2.trans p2, p2, List.prefix_rfl⟩

/-- **C167.** The reported results are never those of the data of an interrupted run: they are the ones from before the run (if
there were any), except in the three last moments, after the loop has ended. Then the best value, the best location and its value are
set one after the other, to those that the run returns. -/
theorem C167_results (env : BOEnv) (a : RunArgs) (fuel : Nat) (s : BOState) (Y : Vec) (hY : s.Y = some Y) (mo : Moment)
    (h : mo ∈ runMoments env a fuel s) :
    (mo.yBest = s.results.map (·.yBest) ∧ mo.xOpt = s.results.map (·.xOpt) ∧ mo.fxOpt = s.results.map (·.fxOpt)) ∨
    ∃ t why r, runOptimization env a fuel s = (t, .done why) ∧ t.results = some r ∧ mo.state.X = t.X ∧ mo.state.Y = t.Y ∧
      mo.yBest = some r.yBest ∧
      (mo.xOpt = s.results.map (·.xOpt) ∧ mo.fxOpt = s.results.map (·.fxOpt) ∨
        mo.xOpt = some r.xOpt ∧ mo.fxOpt = s.results.map (·.fxOpt) ∨ mo.xOpt = some r.xOpt ∧ mo.fxOpt = some r.fxOpt) := by
  cases hobj : env.obj with
  | none =>
    simp only [runMoments, hobj, List.mem_singleton] at h
    subst h
    exact Or.inl ⟨rfl, rfl, rfl⟩
  | some obj =>
    rcases runMoments_cases hobj h with ⟨s', h1, rfl⟩ | ⟨s0, hst, h1⟩
    · obtain ⟨-, -, -, g, -⟩ := startMoments_during hY h1
      exact Or.inl (by simp [BOState.moment, g])
    · have hss := runStart_ok hst
      have hres : s0.results = s.results := by
        unfold runStart at hst
        simp only [hY, Prod.mk.injEq, and_true] at hst
        rw [← hst]
      obtain ⟨Y0, new, hY0, -, hcase⟩ := hss.Y
      have keep : ∀ s' ∈ loopMoments env obj a.limits.1 a.limits.2 a.eps fuel s0, s'.results = s.results := by
        intro s' h1
        obtain ⟨bs, t, batch, extra, htr, -, -, hd, -⟩ := loopMoments_during h1
        obtain ⟨-, -, -, -, -, -, -, -, d9⟩ := htr.data hY0
        rw [hd.results, d9, hres]
      rcases h1 with ⟨s', h1, rfl⟩ | ⟨e, why, Ye, r, hl, hYe, hr, h1⟩
      · exact Or.inl (by simp [BOState.moment, keep s' h1])
      · obtain ⟨g1, g2, -⟩ := resultMoments_data h1
        have he : e.results = s.results := by
          refine keep e (List.mem_of_getLast? ?_)
          rw [loopMoments_last, hl]
        refine Or.inr ⟨{ e with results := some r }, why, r, ?_, rfl, g1, g2, ?_⟩
        · unfold runOptimization
          simp only [hobj, hst, hl, hYe, hr]
        · simp only [resultMoments, List.mem_cons, List.not_mem_nil, or_false] at h1
          rcases h1 with rfl | rfl | rfl <;> simp [BOState.moment, he]

/-- **C167.** `suggest_next_locations` can be interrupted at any moment: locations, outputs, calls and results are as before. -/
theorem C167_suggest (env : BOEnv) (c : Option Context) (s s' : BOState) (h : s' ∈ suggestMoments env c s) :
    s'.X = s.X ∧ s'.Y = s.Y ∧ s'.world = s.world ∧ s'.results = s.results ∧ s'.cost = s.cost := by
  unfold suggestMoments at h
  rw [List.mem_append] at h
  rcases h with h | h
  · simp only [List.mem_cons, List.not_mem_nil, or_false] at h
    rcases h with rfl | rfl | rfl <;> exact ⟨rfl, rfl, rfl, rfl, rfl⟩
  · obtain ⟨ps, fs, rfl⟩ := updateMoments_frame h
    exact ⟨rfl, rfl, rfl, rfl, rfl⟩

/-! ## Continuing -/

/-- **C167** (partial: the user removes the locations without outputs; the model is refitted in every iteration, suggestions depend
on the data and the last fit only, and the cost is not the evaluation time). A run of `n` iterations is interrupted at any moment.
With `bo.X = bo.X[:len(bo.Y)]` and the remaining iterations the object has the locations, the outputs and the results of the run
without the interrupt. The number `k` of completed iterations can be read off the number of locations. -/
theorem C167_resume_partial (env : BOEnv) (hd : LastFit env) (hI : env.interval = 1) (f : Vec → Py ℚ)
    (hobj : env.obj = some fun _ x => f x) (n : Nat) (eps : ℚ) (c : Option Context) (fuel : Nat) (s t : BOState) (why : Stop)
    (hk : s.cost.kind ≠ .evaluationTime) (hal : ∀ Y, s.Y = some Y → s.X.length = Y.length)
    (ht : runOptimization env { maxIter := some (.fin n), eps := eps, context := c } fuel s = (t, .done why)) (mo : Moment)
    (h : mo ∈ runMoments env { maxIter := some (.fin n), eps := eps, context := c } fuel s) :
    ∃ k ≤ n, ∃ t', runOptimization env { maxIter := some (.fin (n - k : Nat)), eps := eps, context := c } fuel mo.state.repair
        = (t', .done why) ∧ t'.X = t.X ∧ t'.Y = t.Y ∧ t'.results = t.results ∧
      ∀ b : Nat, (∀ u m, env.suggest u none none = .ok m → m.length = b) →
        mo.state.repair.X.length = s.X.length + k * b := by
  obtain ⟨φ, hφ⟩ := hd.fit
  obtain ⟨π, hπ⟩ := hd.suggest
  have hdata : GPyOpt.DataOnly (dataEnv env π) :=
    { fit := ⟨φ, hφ⟩
      params := hd.params
      suggest := ⟨fun c X Y _ _ => π c X Y (match env.sp.unzipInputs X, Y with
        | .ok Xm, some Y => some (Xm, env.modelY Y)
        | _, _ => none), fun _ _ _ => rfl⟩ }
  have hI' : (dataEnv env π).interval = 1 := hI
  have hobj' : (dataEnv env π).obj = some fun _ x => f x := hobj
  have hlim : ∀ N : Nat, RunArgs.limits { maxIter := some (.fin N), eps := eps, context := c } = (.fin N, .inf) := fun _ => rfl
  -- the run without the interrupt
  obtain ⟨obj, s0, bs, sk, e, Ye, r, ho, hst, hss, htr, hround, hstop, hYe, hr, rfl⟩ := runOptimization_done ht
  rw [hobj] at ho
  injection ho with ho
  subst ho
  rw [hlim] at htr hround hstop
  simp only at htr hround hstop
  obtain ⟨Y0, new, hY0, -, hcase⟩ := hss.Y
  have hlen0 : s.X.length = Y0.length := by
    rcases hcase with ⟨g, -⟩ | ⟨-, -, g⟩
    · exact hal _ g
    · exact g.symm
  have hk0 : s0.cost.kind ≠ .evaluationTime := by
    cases hY : s.Y with
    | some Y => rw [hss.cost (by rw [hY]; simp)]; exact hk
    | none =>
      unfold runStart at hst
      simp only [hY] at hst
      rcases he : evalFunc (fun _ x => f x) env.clock s.X s.world with ⟨w, q⟩
      rw [he] at hst
      cases q with
      | error e => simp at hst
      | ok p =>
        simp only [if_neg hk, Prod.mk.injEq] at hst
        rw [← hst.1]
        exact hk
  have hloop : boLoop env (fun _ x => f x) (.fin n) .inf eps fuel s0 = (e, .done why) := by
    unfold runOptimization at ht
    simp only [hobj, hst, hlim] at ht
    rcases hl : boLoop env (fun _ x => f x) (.fin n) .inf eps fuel s0 with ⟨e', q⟩
    rw [hl] at ht
    obtain ⟨bs', sk', htr', -, hend⟩ := boLoop_trace hl
    cases q with
    | raised x => simp at ht
    | running => simp at ht
    | done why' =>
      simp only at ht
      cases hY' : e'.Y with
      | none => simp [hY'] at ht
      | some Y' =>
        simp only [hY'] at ht
        cases hr' : computeResults e'.X Y' with
        | error x => simp [hr'] at ht
        | ok r' =>
          simp only [hr', Prod.mk.injEq, RunResult.done.injEq] at ht
          have he' : e'.results = s0.results := by
            obtain ⟨ps, fs, rfl⟩ := (boRound_stop hend).frame
            exact (htr'.data hY0).2.2.2.2.2.2.2.2
          have he : e.results = s0.results := by
            obtain ⟨ps, fs, rfl⟩ := hstop.frame
            exact (htr.data hY0).2.2.2.2.2.2.2.2
          have hYY : Y' = Ye := by
            have := congrArg BOState.Y ht.1
            simp only [hYe, Option.some.injEq] at this
            exact this
          have h2 : e' = e := by
            obtain ⟨_, _, _, _, _, _, _, _, _, _, _⟩ := e'
            obtain ⟨_, _, _, _, _, _, _, _, _, _, _⟩ := e
            simp_all
          rw [h2, ht.2]
  -- continue from the data of a state of the loop
  have main : ∀ (k fuel' : Nat) (v u : BOState), k ≤ n → fuel' ≤ fuel → v.numAcq = k → v.context = c → v.cost.kind ≠ .evaluationTime →
      v.Y ≠ none → boLoop env (fun _ x => f x) (.fin n) .inf eps fuel' v = (e, .done why) → u.X = v.X → u.Y = v.Y →
      u.cost.kind ≠ .evaluationTime →
      ∃ t', runOptimization env { maxIter := some (.fin (n - k : Nat)), eps := eps, context := c } fuel u = (t', .done why) ∧
        t'.X = e.X ∧ t'.Y = e.Y ∧ t'.results = some r := by
    intro k fuel' v u hkn hf hvn hvc hvk hvY hv huX huY huk
    rw [← run_dataEnv hI hπ]
    cases hY : u.Y with
    | none => exact absurd (huY ▸ hY) hvY
    | some Y =>
      refine run_resume (f := f) (u0 := (runStart (dataEnv env π) (fun _ x => f x)
        { maxIter := some (.fin (n - k : Nat)), eps := eps, context := c } u).1) hobj' ?_ ?_ hYe hr
      · unfold runStart; simp only [hY]
      · rw [hlim]
        have h1 := loop_resume (f := f) (env := dataEnv env π) (eps := eps) hdata hI' hkn hf (t := v)
          (u := (runStart (dataEnv env π) (fun _ x => f x)
            { maxIter := some (.fin (n - k : Nat)), eps := eps, context := c } u).1) (e := e) (why := why)
          (by unfold runStart; simp only [hY]; exact huX) (by unfold runStart; simp only [hY]; rw [← huY, hY])
          (by unfold runStart; simp only [hY]; exact hvc.symm) hvk (by unfold runStart; simp only [hY]; exact huk) hvn
          (by unfold runStart; simp only [hY]) (by rw [boLoop_dataEnv hI hπ]; exact hv)
        exact h1
  have hctx : s0.context = c := hss.context
  -- a moment of the loop
  have inLoop : ∀ (bs : List (Mat × Vec)) (v : BOState) (fuel' : Nat) (m' : BOState) (batch : Mat),
      Trace env (fun _ x => f x) (.fin n) .inf eps s0 bs v →
      fuel' ≤ fuel → boLoop env (fun _ x => f x) (.fin n) .inf eps fuel' v = (e, .done why) →
      m'.X = v.X ++ batch → m'.Y = v.Y → m'.cost.kind ≠ .evaluationTime →
      ∃ k ≤ n, ∃ t', runOptimization env { maxIter := some (.fin (n - k : Nat)), eps := eps, context := c } fuel m'.repair
          = (t', .done why) ∧ t'.X = e.X ∧ t'.Y = e.Y ∧ t'.results = some r ∧
        ∀ b : Nat, (∀ u m, env.suggest u none none = .ok m → m.length = b) → m'.repair.X.length = s.X.length + k * b := by
    intro bs v fuel' m' batch hv hf hl hX hY hkm
    obtain ⟨d1, d2, -, d4, -, d6, d7, -⟩ := hv.data hY0
    have hrep : m'.repair = { m' with X := v.X } := by
      unfold BOState.repair
      rw [hY, d2]
      simp only
      congr 1
      rw [hX, List.take_append_of_le_length, List.take_of_length_le]
      · rw [d1, List.length_append, List.length_append, d4, hss.X, hlen0]
      · rw [d1, List.length_append, List.length_append, d4, hss.X, hlen0]
    refine ⟨bs.length, trace_budget hv hss.numAcq hY0, ?_⟩
    obtain ⟨t', g1, g2, g3, g4⟩ := main bs.length fuel' v m'.repair (trace_budget hv hss.numAcq hY0) hf
      (by rw [d6, hss.numAcq]; omega) (by rw [d7, hctx]) (trace_kind hv hk0) (by rw [d2]; simp) hl (by rw [hrep])
      (by rw [hrep]; exact hY) (by rw [hrep]; exact hkm)
    refine ⟨t', g1, g2, g3, g4, fun b hb => ?_⟩
    rw [hrep]
    simp only
    rw [d1, List.length_append, trace_rows hv hb, hss.X]
  rcases runMoments_cases hobj h with ⟨m', h1, rfl⟩ | ⟨s0', hst', h1⟩
  · -- the start of the run
    cases hY : s.Y with
    | some Y =>
      obtain ⟨g1, g2, -, -, g5⟩ := startMoments_during hY h1
      have : Y0 = Y := by
        rcases hcase with ⟨g, -⟩ | ⟨g, -⟩
        · rw [hY] at g; injection g with g; exact g.symm
        · rw [hY] at g; cases g
      subst this
      exact inLoop [] s0 fuel m' [] (.nil _) le_rfl hloop (by rw [g1, hss.X, List.append_nil]) (by rw [g2, hY, hY0])
        (by rw [g5]; exact hk)
    | none =>
      obtain ⟨g1, -, g3, ⟨g4, -⟩ | ⟨ys, ts, w, g4, g5, -⟩⟩ := startMoments_none hY h1
      · -- no outputs yet: the initial locations are evaluated again
        have hrep : m'.repair = m' := by unfold BOState.repair; rw [g4]
        have hkm : m'.cost.kind ≠ .evaluationTime := by rw [g3]; exact hk
        simp only [BOState.moment, hrep]
        refine ⟨0, by omega, ?_⟩
        obtain ⟨ts0, w0, hev0⟩ : ∃ ts w, evalFunc (fun _ x => f x) env.clock s.X s.world = (w, .ok (Y0, ts)) := by
          unfold runStart at hst
          simp only [hY] at hst
          rcases he : evalFunc (fun _ x => f x) env.clock s.X s.world with ⟨w, q⟩
          rw [he] at hst
          cases q with
          | error e => simp at hst
          | ok p =>
            obtain ⟨ys, ts⟩ := p
            simp only [if_neg hk, Prod.mk.injEq] at hst
            refine ⟨ts, w, ?_⟩
            have := hst.1
            rw [← this] at hY0
            simp only [Option.some.injEq] at hY0
            rw [hY0]
        have hc := evalFunc_const (f := f) (clock := env.clock) (xs := s.X) s.world m'.world
        rw [hev0] at hc
        rcases hev1 : evalFunc (fun _ x => f x) env.clock s.X m'.world with ⟨w1, q⟩
        rw [hev1] at hc
        cases q with
        | error x => simp [Except.map] at hc
        | ok p =>
          obtain ⟨ys1, ts1⟩ := p
          simp only [Except.map, Except.ok.injEq] at hc
          subst hc
          have hstart : ∃ u0, runStart (dataEnv env π) (fun _ x => f x)
              { maxIter := some (.fin (n - 0 : Nat)), eps := eps, context := c } m' = (u0, .ok ()) ∧ u0.X = s0.X ∧
              u0.Y = s0.Y ∧ u0.context = c ∧ u0.cost.kind ≠ .evaluationTime ∧ u0.numAcq = 0 := by
            unfold runStart
            simp only [g4, g1]
            rw [show (dataEnv env π).clock = env.clock from rfl, hev1]
            simp only [if_neg hkm]
            exact ⟨_, rfl, hss.X.symm, hY0.symm, rfl, hkm, rfl⟩
          obtain ⟨u0, v1, v2, v3, v4, v5, v6⟩ := hstart
          rw [← run_dataEnv hI hπ]
          obtain ⟨t', w1, w2, w3, w4⟩ := run_resume (f := f) hobj' (fuel := fuel) (why := why) v1 (by
            rw [hlim]
            exact loop_resume (f := f) (env := dataEnv env π) (eps := eps) hdata hI' (Nat.zero_le n) le_rfl v2 v3
              (v4.trans hctx.symm) hk0 v5 hss.numAcq v6 (by rw [boLoop_dataEnv hI hπ]; exact hloop)) hYe hr
          exact ⟨t', w1, w2, w3, w4, fun b hb => by rw [g1]; omega⟩
      · -- the outputs are there
        have : Y0 = ys := by
          unfold runStart at hst
          simp only [hY, g4, if_neg hk, Prod.mk.injEq] at hst
          have := hst.1
          rw [← this] at hY0
          simpa using hY0.symm
        subst this
        exact inLoop [] s0 fuel m' [] (.nil _) le_rfl hloop (by rw [g1, hss.X, List.append_nil]) (by rw [g5, hY0])
          (by rw [g3]; exact hk)
  · have : s0' = s0 := by rw [hst] at hst'; simpa using hst'.symm
    subst this
    rcases h1 with ⟨m', h1, rfl⟩ | ⟨e', why', Y', r', hl, hY', hr', h1⟩
    · rw [hlim] at h1
      obtain ⟨bs', v, batch, extra, hv, hbs, hl, hdu, -⟩ := loopMoments_during h1
      exact inLoop bs' v (fuel - bs'.length) m' batch hv (by omega) (by rw [← hl, hloop]) hdu.X hdu.Y
        (by rw [hdu.kind]; exact trace_kind hv hk0)
    · rw [hlim] at hl
      simp only at hl
      rw [hloop, Prod.mk.injEq] at hl
      obtain ⟨rfl, -⟩ := hl
      obtain ⟨q1, q2, -, q4⟩ := resultMoments_data h1
      have hf1 : 1 ≤ fuel := by
        rcases fuel with _ | k
        · simp [boLoop] at hloop
        · omega
      obtain ⟨ps, fs, hfr⟩ := hstop.frame
      refine inLoop bs sk 1 mo.state [] htr hf1 ?_ ?_ ?_ ?_
      · unfold boLoop; simp only [hround]
      · rw [q1, hfr, List.append_nil]
      · rw [q2, hfr]
      · have := trace_kind htr hk0
        rw [q4, hfr]
        exact this

/-! ## Several processes -/

/-- **C167.** With several processes the user cannot interrupt the evaluation of a batch: the interrupt is caught with all other
exceptions, the rows are evaluated again one after the other, and the run goes on. However many evaluations are interrupted, a run
that returns is, up to clock readings, the run without interrupts and with one process. -/
theorem C167_processes (f : Vec → Py ℚ) {n : Nat} (hn : 2 ≤ n) (size : Vec → Nat) (cap : Nat) (canStart : Bool)
    (clock : Nat → ℚ) (ev : Evaluation) (hev : InterruptedEvaluation n f size cap canStart clock ev) (env : BOEnv)
    (hobj : env.obj = some fun _ => f) (hd : DataOnly env) (a : RunArgs) (ha : a.maxTime = none ∨ a.maxTime = some .inf)
    (fuel : Nat) (s : BOState) (hk : s.cost.kind ≠ .evaluationTime) (s' : BOState) (r : RunResult)
    (h1 : runOptimizationBy env ev a fuel s = some (s', r)) :
    (∀ w x, ¬ EvaluateInterrupted n f clock w x none) ∧
    ∃ t', runOptimization env a fuel s = (t', r) ∧ SameData s' t' := by
  refine ⟨fun w x h => by cases h; omega, ?_⟩
  rcases hrun : runOptimization env a fuel s with ⟨t', r'⟩
  have hone := C153_one_process env _ hobj a fuel s
  rw [hrun] at hone
  have hsame : SameEvaluation ev (seqEvaluation (fun _ => f) env.clock) := by
    intro u v m w q w' q' _ _ e1 e2
    unfold seqEvaluation at e2
    simp only [Option.some.injEq, Prod.mk.injEq] at e2
    have h2 : q.map Prod.fst = (evalFunc (fun _ => f) clock m u.world).2.map Prod.fst := by
      rcases hev u m w q e1 with h | h
      · exact evaluates_fst (by omega) h
      · cases h
        cases (evalFunc (fun _ => f) clock m u.world).2 <;> rfl
    rw [h2, ← e2.2, evalFunc_fst f clock env.clock m u.world v.world]
    cases (evalFunc (fun _ => f) env.clock m v.world).2 <;> rfl
  obtain ⟨h2, h3⟩ := runBy_same hd hsame a ha fuel (SameData.refl s) hk h1 hone
  simp only at h2 h3
  exact ⟨t', by rw [h3], h2⟩

/-! ## What goes wrong -/

/-- A model of the evaluation time that has counted an update whose data it was never given. -/
def StuckCost (c : CostModel) : Prop := c.kind = .evaluationTime ∧ c.numUpdates ≠ 0 ∧ c.data = none

theorem stuck_update {c : CostModel} (h : StuckCost c) (lg : ℚ → ℚ) (fit : Py Unit) (x : Mat) (t : CostEvals) :
    c.update lg fit x t = (c, .error .attributeError) := by
  unfold CostModel.update
  rw [h.1, h.2.2]
  simp only [if_neg h.2.1]

theorem stuck_loop {env : BOEnv} {obj : Nat → Vec → Py ℚ} {mi mt : Limit} {eps : ℚ} (fuel : Nat) {s : BOState}
    (h : StuckCost s.cost) {Y : Vec} (hY : s.Y = some Y) :
    (boLoop env obj mi mt eps fuel s).1.Y = some Y ∧ StuckCost (boLoop env obj mi mt eps fuel s).1.cost := by
  rcases hl : boLoop env obj mi mt eps fuel s with ⟨e, q⟩
  have hnext : ∀ t, boRound env obj mi mt eps s ≠ .next t := by
    intro t ht
    obtain ⟨m, ys, hs⟩ := boRound_next ht
    obtain ⟨ts, c', hc⟩ := hs.cost
    rw [stuck_update h] at hc
    simp at hc
  cases fuel with
  | zero =>
    simp only [boLoop, Prod.mk.injEq] at hl
    rw [← hl.1]
    exact ⟨hY, h⟩
  | succ fuel =>
    unfold boLoop at hl
    cases hr : boRound env obj mi mt eps s with
    | next t => exact absurd hr (hnext t)
    | stop t why =>
      simp only [hr, Prod.mk.injEq] at hl
      obtain ⟨ps, fs, hfr⟩ := (boRound_stop hr).frame
      rw [← hl.1, hfr]
      exact ⟨hY, h⟩
    | raised t x =>
      simp only [hr, Prod.mk.injEq] at hl
      rw [← hl.1]
      refine ⟨by obtain ⟨m, -, h2, -⟩ := boRound_raised hr; rw [h2, hY], ?_⟩
      unfold boRound at hr
      split_ifs at hr with ht
      rcases hu : updateModel env s with ⟨s1, q⟩
      rw [hu] at hr
      obtain ⟨ps, fs, hfr⟩ := updateModel_frame hu
      have h1 : StuckCost s1.cost := by rw [hfr]; exact h
      cases q with
      | error x' =>
        have : t = s1 := by cases x' <;> first | (simp at hr; done) | (simp at hr; simp [hr])
        rw [this]; exact h1
      | ok u =>
        simp only at hr
        split_ifs at hr with hstop
        cases hsu : env.suggest s1 none none with
        | error x' => simp only [hsu, Round.raised.injEq] at hr; rw [← hr.1]; exact h1
        | ok m =>
          simp only [hsu] at hr
          unfold evaluateObjective at hr
          simp only [stuck_update h1] at hr
          rcases he : evalFunc obj env.clock m s1.world with ⟨w, q⟩
          rw [he] at hr
          cases q with
          | error x' => simp only [Round.raised.injEq] at hr; rw [← hr.1]; exact h1
          | ok p => simp only [Round.raised.injEq] at hr; rw [← hr.1]; exact h1

/-- Runs one after the other; the user removes locations without outputs before each. -/
def laterRuns (env : BOEnv) : List (RunArgs × Nat) → BOState → BOState
  | [], s => s
  | (a, fuel) :: rest, s => laterRuns env rest (runOptimization env a fuel s.repair).1

/-- **C167** (negation: an interrupted run can be continued). The cost is the evaluation time. There is a moment of the run, after
the evaluation of the initial locations, such that an object interrupted there never collects another output, whatever runs
follow, and even if the user removes locations without outputs: the cost model has counted an update, and looks for its data. -/
theorem C167_cost_counterexample (env : BOEnv) (obj : Nat → Vec → Py ℚ) (hobj : env.obj = some obj) (a : RunArgs) (fuel : Nat)
    (s : BOState) (hY : s.Y = none) (hc : s.cost = costModelInit (.str "evaluation_time"))
    (hev : ∃ w ys ts, evalFunc obj env.clock s.X s.world = (w, .ok (ys, ts))) :
    ∃ mo ∈ runMoments env a fuel s, mo.state.Y ≠ none ∧
      ∀ runs : List (RunArgs × Nat), (laterRuns env runs mo.state).Y = mo.state.Y := by
  obtain ⟨w, ys, ts, hev⟩ := hev
  have hkind : s.cost.kind = .evaluationTime := by rw [hc]; rfl
  have hnum : s.cost.numUpdates = 0 := by rw [hc]; rfl
  have hdata : s.cost.data = none := by rw [hc]; rfl
  let s2 : BOState := { s with params := none, context := a.context, world := w, Y := some ys }
  let stuck : BOState := { s2 with cost := { s.cost with numUpdates := s.cost.numUpdates + 1 } }
  refine ⟨stuck.moment, ?_, by simp [BOState.moment, stuck, s2], ?_⟩
  · unfold runMoments
    simp only [hobj, List.mem_append, List.mem_map]
    left
    refine ⟨stuck, ?_, rfl⟩
    unfold startMoments
    simp only [hY, hev, hkind, if_true, List.mem_append, List.mem_map]
    refine Or.inr (Or.inr (Or.inl ⟨{ s.cost with numUpdates := s.cost.numUpdates + 1 }, ?_, rfl⟩))
    unfold CostModel.moments
    rw [if_neg]
    · simp
    · unfold CostModel.update
      rw [hkind]
      simp only [hnum, if_true]
      cases columnValues (costColumn env.lg (.list ts)) with
      | none => simp
      | some new => simp only; split_ifs <;> simp
  · have key : ∀ (runs : List (RunArgs × Nat)) (u : BOState), StuckCost u.cost → u.Y = some ys →
        (laterRuns env runs u).Y = some ys := by
      intro runs
      induction runs with
      | nil => intro u _ hu; exact hu
      | cons p runs ih =>
        obtain ⟨b, k⟩ := p
        intro u hu huY
        have hrep : u.repair = { u with X := u.X.take ys.length } := by unfold BOState.repair; rw [huY]
        have hstep : (runOptimization env b k u.repair).1.Y = some ys ∧ StuckCost (runOptimization env b k u.repair).1.cost := by
          rw [hrep]
          unfold runOptimization
          simp only [hobj]
          unfold runStart
          simp only [huY]
          rcases hl : boLoop env obj b.limits.1 b.limits.2 b.eps k
            { u with X := u.X.take ys.length, Y := some ys, params := none, context := b.context,
                     timeZero := env.clock u.world.ticks, world := { u.world with ticks := u.world.ticks + 1 }, cumTime := 0,
                     numAcq := 0 } with ⟨e, q⟩
          have h1 := stuck_loop (env := env) (obj := obj) (mi := b.limits.1) (mt := b.limits.2) (eps := b.eps) k
            (s := { u with X := u.X.take ys.length, Y := some ys, params := none, context := b.context,
                           timeZero := env.clock u.world.ticks, world := { u.world with ticks := u.world.ticks + 1 },
                           cumTime := 0, numAcq := 0 }) hu rfl
          rw [hl] at h1
          cases q with
          | raised x => exact h1
          | running => exact h1
          | done why =>
            obtain ⟨g1, g2⟩ := h1
            simp only at g1 g2
            simp only [g1]
            cases computeResults e.X ys with
            | error x => exact ⟨g1, g2⟩
            | ok r => exact ⟨rfl, g2⟩
        exact ih _ hstep.2 hstep.1
    intro runs
    exact key runs stuck ⟨hkind, by simp [stuck], hdata⟩ rfl

/-- A problem with a model that is refitted in every iteration. -/
def exStop (sp : Space) : BOEnv := { exBO sp with interval := 1 }

/-- the hypotheses of `C167_resume_partial` -/
example (sp : Space) : LastFit (exStop sp) ∧ (exStop sp).interval = 1 ∧
    (exStop sp).obj = some (fun _ x => (fun x : Vec => .ok ((x.headD 0 - 1/4) ^ 2)) x) :=
  ⟨{ fit := ⟨fun _ _ => .ok (), fun _ _ _ => rfl⟩
     params := fun _ => ⟨_, rfl⟩
     suggest := ⟨fun _ X _ _ => .ok [[1 / ((X.length : ℚ) + 1)]], fun _ => rfl⟩ }, rfl, rfl⟩

/-- Two iterations on two initial locations. -/
def exStopMoments (sp : Space) : List Moment :=
  runMoments (exStop sp) { maxIter := some (.fin 2) } 10 (boInit [[0], [1]] (some [1/16, 9/16]) .none)

set_option synthInstance.maxSize 1000 in
/-- 36 moments; the interrupt in the first call of the objective is the twelfth; a user who removes the location without output
gets the result of the run without the interrupt from two iterations, one who is interrupted in the second call from one. -/
example : ((designSpace exLine none).map fun sp => ((exStopMoments sp).length,
    (exStopMoments sp)[11]?.map fun mo => (mo.state.X, mo.state.Y, mo.state.world.calls.map Prod.fst))) =
      .ok (36, some ([[0], [1], [1/3]], some [1/16, 9/16], [[1/3]])) ∧
    ((designSpace exLine none).map fun sp => (exStopMoments sp)[11]?.map fun mo =>
      let r := runOptimization (exStop sp) { maxIter := some (.fin 2) } 10 mo.state.repair
      (r.2, r.1.X, r.1.Y)) = .ok (some (.done .limit, [[0], [1], [1/3], [1/4]], some [1/16, 9/16, 1/144, 0])) ∧
    ((designSpace exLine none).map fun sp => (exStopMoments sp)[23]?.map fun mo =>
      let r := runOptimization (exStop sp) { maxIter := some (.fin 1) } 10 mo.state.repair
      (r.2, r.1.X, r.1.Y)) = .ok (some (.done .limit, [[0], [1], [1/3], [1/4]], some [1/16, 9/16, 1/144, 0])) := by
  decide +kernel

set_option synthInstance.maxSize 1000 in
/-- **C167** (negation: a user who interrupts a run can simply go on). Interrupted in the first call of the objective, the object
keeps the location without its output. Another run of two iterations works on shifted data: it reports `1/3` as the optimum with the
output 0 of `1/4`, and does not evaluate the same locations as the run without the interrupt. -/
theorem C167_resume_counterexample :
    ((designSpace exLine none).map fun sp => (exStopMoments sp)[11]?.map fun mo =>
      let r := runOptimization (exStop sp) { maxIter := some (.fin 2) } 10 mo.state
      (r.2, r.1.X, r.1.Y, r.1.results.map fun q => (q.yBest, q.xOpt, q.fxOpt))) =
    .ok (some (.done .limit, [[0], [1], [1/3], [1/4], [1/5]], some [1/16, 9/16, 0, 1/400],
      some ([1/16, 1/16, 0, 0], [1/3], 0))) := by
  decide +kernel

/-- the hypotheses of `C167_cost_counterexample`, and the exception of every later run that evaluates -/
example : ((designSpace exLine none).map fun sp =>
    (evalFunc (fun _ x => .ok ((x.headD 0 - 1/4) ^ 2)) (exStop sp).clock [[0], [1]] { calls := [], ticks := 0 }).2) =
      .ok (.ok ([1/16, 9/16], [1, 1])) ∧
    ((designSpace exLine none).map fun sp =>
      (runMoments (exStop sp) { maxIter := some (.fin 2) } 10 (boInit [[0], [1]] none (.str "evaluation_time")))[13]?.map fun mo =>
        ((runOptimization (exStop sp) { maxIter := some (.fin 2) } 10 mo.state).2,
          (runOptimization (exStop sp) { maxIter := some (.fin 2) } 10 mo.state).1.Y)) =
      .ok (some (.raised .attributeError, some [1/16, 9/16])) := by
  decide +kernel

/-- an evaluation that is interrupted with two processes -/
example (f : Vec → Py ℚ) (size : Vec → Nat) (cap : Nat) (clock : Nat → ℚ) :
    InterruptedEvaluation 2 f size cap true clock (seqEvaluation (fun _ => f) clock) := by
  intro s m w r h
  unfold seqEvaluation at h
  simp only [Option.some.injEq, Prod.mk.injEq] at h
  rw [← h.2]
  exact Or.inr (.caught (by decide))

end GPyOpt.Props
