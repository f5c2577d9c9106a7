import Verif.Lemmas.Sim
import Verif.Props.Loop

/-!
# Properties C39–C43 and C45–C47: results and records of a run
-/

namespace GPyOpt.Props

open GPyOpt Spec

/-! ## C39: reported optimum -/

theorem foldl_min_le (l : Vec) (a : ℚ) :
    l.foldl min a ≤ a ∧ (∀ v ∈ l, l.foldl min a ≤ v) ∧ (l.foldl min a = a ∨ l.foldl min a ∈ l) := by
  induction l generalizing a with
  | nil => simp
  | cons x l ih =>
    obtain ⟨h1, h2, h3⟩ := ih (min a x)
    simp only [List.foldl_cons]
    refine ⟨h1.trans (min_le_left _ _), ?_, ?_⟩
    · intro v hv
      rcases List.mem_cons.1 hv with rfl | hv
      · exact h1.trans (min_le_right _ _)
      · exact h2 v hv
    · rcases h3 with h3 | h3
      · rcases min_choice a x with hm | hm
        · left; rw [h3, hm]
        · right; rw [h3, hm]; simp
      · right; exact List.mem_cons_of_mem _ h3

theorem isMin_prefix {Y : Vec} {i : Nat} (hi : i < Y.length) :
    IsMin (Y.take (i + 1)) ((Y.take (i + 1)).foldl min ((Y.take (i + 1)).headD 0)) := by
  cases Y with
  | nil => simp at hi
  | cons y Y =>
    obtain ⟨h1, h2, h3⟩ := foldl_min_le ((y :: Y).take (i + 1)) y
    simp only [List.take_succ_cons, List.headD_cons] at h1 h2 h3 ⊢
    refine ⟨?_, h2⟩
    rcases h3 with h3 | h3
    · rw [h3]; simp
    · exact h3

/-- C39. After a completed run `fx_opt` is the minimum of the outputs, `x_opt` the first location
with this output; `Y_best` has one entry per output, the minimum of the outputs so far, is
non-increasing and ends in `fx_opt`. -/
theorem C39_reported_optimum (env : BOEnv) (a : RunArgs) (fuel : Nat) (s s' : BOState) (why : Stop)
    (h : runOptimization env a fuel s = (s', .done why)) :
    ∃ (r : Results) (Y : Vec) (i : Nat), s'.results = some r ∧ s'.Y = some Y ∧ IsMin Y r.fxOpt ∧
      Y[i]? = some r.fxOpt ∧ s'.X[i]? = some r.xOpt ∧
      (∀ (j : Nat) (y : ℚ), Y[j]? = some y → j < i → r.fxOpt < y) ∧
      r.yBest.length = Y.length ∧
      (∀ (k : Nat) (y : ℚ), r.yBest[k]? = some y → IsMin (Y.take (k + 1)) y) ∧
      (∀ (j k : Nat) (y y' : ℚ), j ≤ k → r.yBest[j]? = some y → r.yBest[k]? = some y' → y' ≤ y) ∧
      r.yBest.getLast? = some r.fxOpt := by
  obtain ⟨obj, s0, bs, sk, s2, Y, r, -, -, -, -, -, -, hY, hr, rfl⟩ := runOptimization_done h
  unfold computeResults at hr
  cases hne : Y with
  | nil => subst hne; simp [argmin] at hr
  | cons y0 Y0 =>
    have hYne : Y ≠ [] := by rw [hne]; simp
    obtain ⟨i, v, h1, h2, h3, h4⟩ := argmin_spec hYne
    simp only [h1] at hr
    cases hx : npGet s2.X i with
    | error e => simp [hx] at hr
    | ok x =>
      have hyi : npGet Y i = .ok v := npGet_ok.2 h3
      simp only [hx, hyi, Except.ok.injEq] at hr
      subst hr
      have hbest : ∀ (k : Nat) (y : ℚ), (bestValue Y)[k]? = some y → k < Y.length ∧ IsMin (Y.take (k + 1)) y := by
        intro k y hk
        unfold bestValue at hk
        rw [List.getElem?_map] at hk
        rcases Nat.lt_or_ge k Y.length with hlt | hge
        · rw [List.getElem?_range hlt] at hk
          simp only [Option.map_some, Option.some.injEq] at hk
          rw [← hk]
          exact ⟨hlt, isMin_prefix hlt⟩
        · rw [List.getElem?_eq_none (by simpa using hge)] at hk
          simp at hk
      have hmin : IsMin Y v := by
        refine ⟨List.mem_of_getElem? h3, fun w hw => ?_⟩
        obtain ⟨j, hj⟩ := List.mem_iff_getElem?.1 hw
        exact (h4 j w hj).1
      have hlen : (bestValue Y).length = Y.length := by simp [bestValue]
      refine ⟨_, Y, i, rfl, hY, hmin, h3, npGet_ok.1 hx, fun j y hj hji => (h4 j y hj).2 hji, hlen,
        fun k y hk => (hbest k y hk).2, ?_, ?_⟩
      · intro j k y y' hjk hj hk
        obtain ⟨-, -, hm'⟩ := hbest k y' hk
        obtain ⟨-, hm, -⟩ := hbest j y hj
        apply hm'
        exact (List.take_subset_take_left _ (by omega)) hm
      · have hpos : 0 < Y.length := List.length_pos_iff.2 hYne
        have hlast : (bestValue Y)[Y.length - 1]? = some ((bestValue Y)[Y.length - 1]'(by omega)) :=
          List.getElem?_eq_getElem _
        rw [List.getLast?_eq_getElem?, hlen, hlast]
        obtain ⟨-, hb1, hb2⟩ := hbest _ _ hlast
        rw [show Y.length - 1 + 1 = Y.length by omega, List.take_length] at hb1 hb2
        congr 1
        exact le_antisymm (hb2 v hmin.1) (hmin.2 _ hb1)

/-! ## C40: failed objective evaluation -/

/-- the update of a cost model keeps its kind -/
theorem cost_update_kind {lg : ℚ → ℚ} {fit : Py Unit} {c c' : CostModel} {x : Mat} {t : CostEvals} {q : Py Unit}
    (h : c.update lg fit x t = (c', q)) : c'.kind = c.kind := by
  by_cases hk : c.kind = .evaluationTime
  · unfold CostModel.update at h
    rw [hk] at h
    simp only at h
    repeat' split at h
    all_goals
      cases h
      first | rfl | exact hk.symm
  · rw [update_other hk] at h
    cases h; rfl

/-- C40 (partial: exceptions that neither the objective nor the cost model raised). If a run is ended
by an exception then the data are still aligned, or the objective raised it, or (only with
`cost = 'evaluation_time'`) the update of the cost model did, after all locations of the batch had been evaluated; in the latter
two cases the outputs are as many as the locations before the failed batch. -/
theorem C40_failed_objective_partial (env : BOEnv) (a : RunArgs) (fuel : Nat) (s s' : BOState)
    (e : Err) (Y : Vec) (hY : s.Y = some Y) (hal : s.X.length = Y.length)
    (h : runOptimization env a fuel s = (s', .raised e)) :
    ∃ Y' m, s'.Y = some Y' ∧ s'.X.length = Y'.length + m ∧
      (m ≠ 0 → (∃ x, s'.world.calls.getLast? = some (x, .error e)) ∨
        s.cost.kind = .evaluationTime ∧ ∃ ys : Vec, ys.length = m ∧
          (s'.X.drop Y'.length).zip (ys.map .ok) <:+ s'.world.calls) := by
  unfold runOptimization at h
  cases ho : env.obj with
  | none =>
    simp only [ho, Prod.mk.injEq] at h
    obtain ⟨rfl, -⟩ := h
    exact ⟨Y, 0, hY, hal, by simp⟩
  | some obj =>
    simp only [ho] at h
    rcases hst : runStart env obj a s with ⟨s0, r⟩
    rw [hst] at h
    cases r with
    | error e' => unfold runStart at hst; simp [hY] at hst
    | ok u =>
      have hs0 := runStart_ok hst
      obtain ⟨Y0, new, hY0, -, hcase⟩ := hs0.Y
      have hYe : Y0 = Y := by
        rcases hcase with ⟨h1, -⟩ | ⟨h1, -⟩
        · rw [hY] at h1; injection h1 with h1; exact h1.symm
        · rw [hY] at h1; cases h1
      subst hYe
      simp only at h
      rcases hl : boLoop env obj a.limits.1 a.limits.2 a.eps fuel s0 with ⟨s2, r⟩
      rw [hl] at h
      obtain ⟨bs, sk, htr, -, hend⟩ := boLoop_trace hl
      obtain ⟨d1, d2, d3, d4, -⟩ := htr.data hY0
      have hlen : sk.X.length = (Y0 ++ batchVals bs).length := by
        rw [d1, hs0.X]; simp [hal, d4]
      have hkind : sk.cost.kind = s.cost.kind := by
        have : ∀ {s s'} {bs}, Trace env obj a.limits.1 a.limits.2 a.eps s bs s' → s'.cost.kind = s.cost.kind := by
          intro s s' bs ht
          induction ht with
          | nil => rfl
          | cons hr hs ht ih =>
            obtain ⟨ts, c', hc⟩ := hs.cost
            exact ih.trans (cost_update_kind hc)
        rw [this htr, hs0.cost (by rw [hY]; simp)]
      cases r with
      | running => simp at h
      | done why =>
        simp only at h hend
        obtain ⟨ps, fs, rfl⟩ := (boRound_stop hend).frame
        simp only [d2] at h
        refine ⟨Y0 ++ batchVals bs, 0, ?_, ?_, by simp⟩
        · cases hr : computeResults sk.X (Y0 ++ batchVals bs) with
          | ok r => simp [hr] at h
          | error e' => simp only [hr, Prod.mk.injEq] at h; rw [← h.1]
        · cases hr : computeResults sk.X (Y0 ++ batchVals bs) with
          | ok r => simp [hr] at h
          | error e' =>
            simp only [hr, Prod.mk.injEq] at h; rw [← h.1]
            exact hlen
      | raised e' =>
        simp only [Prod.mk.injEq, RunResult.raised.injEq] at h hend
        obtain ⟨rfl, rfl⟩ := h
        unfold boRound at hend
        split_ifs at hend with ht
        rcases hu : updateModel env sk with ⟨s1, r⟩
        rw [hu] at hend
        obtain ⟨ps, fs, hfr⟩ := updateModel_frame hu
        cases r with
        | error e'' =>
          have : s2 = s1 := by
            cases e'' <;> first | (simp at hend; done) | (simp at hend; simp [hend])
          subst this
          rw [hfr]
          exact ⟨_, 0, d2, hlen, by simp⟩
        | ok u =>
          simp only at hend
          split_ifs at hend with hstop
          cases hsu : env.suggest s1 none none with
          | error e'' =>
            simp only [hsu, Round.raised.injEq] at hend
            rw [← hend.1, hfr]
            exact ⟨_, 0, d2, hlen, by simp⟩
          | ok m =>
            simp only [hsu] at hend
            have hk1 : s1.cost.kind = s.cost.kind := by rw [hfr]; exact hkind
            have hY1 : s1.Y = some (Y0 ++ batchVals bs) := by rw [hfr]; exact d2
            have hX1 : s1.X = sk.X := by rw [hfr]
            unfold evaluateObjective at hend
            rcases he : evalFunc obj env.clock m s1.world with ⟨w, r⟩
            rw [he] at hend
            cases r with
            | error e'' =>
              simp only [Round.raised.injEq] at hend
              obtain ⟨rfl, rfl⟩ := hend
              refine ⟨_, m.length, hY1, by simp [hX1, hlen], fun _ => ?_⟩
              obtain ⟨i, x, ys, -, -, hc⟩ := evalFunc_error he
              exact .inl ⟨x, by simp [hc]⟩
            | ok p =>
              obtain ⟨ys, ts⟩ := p
              obtain ⟨e1, e2, e3⟩ := evalFunc_ok he
              simp only at hend
              rcases hcu : CostModel.update env.lg (env.costFit { s1 with X := s1.X ++ m }) s1.cost m (.list ts) with ⟨c', q⟩
              cases q with
              | ok u =>
                simp only [hcu] at hend
                simp only [hY1] at hend
                cases hend
              | error e'' =>
                simp only [hcu, Round.raised.injEq] at hend
                obtain ⟨rfl, rfl⟩ := hend
                refine ⟨_, m.length, hY1, by simp [hX1, hlen], fun _ => .inr ⟨?_, ys, e1, ?_⟩⟩
                · by_contra hne
                  rw [update_other (hk1 ▸ hne)] at hcu
                  cases hcu
                · simp only [hX1]
                  rw [List.drop_append_of_le_length hlen.ge, List.drop_of_length_le hlen.le, List.nil_append, e3]
                  exact List.suffix_append _ _

/-! ### A small example object -/

/-- one continuous variable in [0, 1] -/
def exLine : List Desc := [{ name := some "x", type := some "continuous", domain := some (.flat [0, 1]) }]

/-- suggestions 1/3, 1/4, ...; objective (x - 1/4)^2; the clock advances by one with every reading;
the model is refitted every second acquisition -/
def exBO (sp : Space) : BOEnv where
  sp := sp
  obj := some fun _ x => .ok ((x.headD 0 - 1/4) ^ 2)
  clock := fun n => n
  fit := fun _ _ _ => .ok ()
  params := fun s => .ok [(s.fits.length : ℚ)]
  costFit := fun _ => .ok ()
  lg := id
  suggest := fun s _ _ => .ok [[1 / ((s.X.length : ℚ) + 1)]]
  normalizeY := false
  normalize := id
  interval := 2

/-- Three iterations on two initial locations: the hypotheses of C35–C39 and C42, C43 are met. -/
example : ((designSpace exLine none).map fun sp =>
      let r := runOptimization (exBO sp) { maxIter := some (.fin 3) } 10 (boInit [[0], [1]] none .none)
      [(r.2, r.1.X, r.1.Y)])
    = .ok [(.done .limit, [[0], [1], [1/3], [1/4], [1/5]], some [1/16, 9/16, 1/144, 0, 1/400])] := by
  decide +kernel

example : ((designSpace exLine none).map fun sp =>
      let r := runOptimization (exBO sp) { maxIter := some (.fin 3) } 10 (boInit [[0], [1]] none .none)
      (r.1.results, r.1.fits.map Fit.acq, r.1.params))
    = .ok (some { yBest := [1/16, 1/16, 1/144, 0, 0], xOpt := [1/4], fxOpt := 0 },
        [0, 2], some [[1], [1], [2], [2]]) := by decide +kernel

/-- The run ends by time: `max_time = 5` with a clock advancing by one per reading. -/
example : ((designSpace exLine none).map fun sp =>
      let r := runOptimization (exBO sp) { maxIter := none, maxTime := some (.fin 5) } 10
        (boInit [[0], [1]] (some [1, 2]) .none)
      (r.2, r.1.X, r.1.cumTime)) = .ok (.done .time, [[0], [1], [1/3], [1/4]], 6) := by decide +kernel

/-- The run ends because the last two locations are closer than `eps`. -/
example : ((designSpace exLine none).map fun sp =>
      let r := runOptimization (exBO sp) { maxIter := some (.fin 9), eps := 1/10 } 10
        (boInit [[0], [1]] (some [1, 2]) .none)
      (r.2, r.1.X)) = .ok (.done .limit, [[0], [1], [1/3], [1/4]]) := by decide +kernel

/-- `exBO` with an objective whose first call raises -/
def exFail (sp : Space) : BOEnv :=
  { exBO sp with obj := some fun k x =>
      if k = 0 then .error .objectiveError else .ok ((x.headD 0 - 1/4) ^ 2) }

/-- C40 (negation of the full property). If the objective raises at the first suggested location
then there are more locations than outputs afterwards; they are never removed: also after a further,
successful run the data are not aligned, every output after the failure belongs to another location
than the one with its index, and the reported optimum is wrong. -/
theorem C40_failed_objective_counterexample :
    ((designSpace exLine none).map fun sp =>
      let r := runOptimization (exFail sp) { maxIter := some (.fin 3) } 10
        (boInit [[0], [1]] (some [1/16, 9/16]) .none)
      (r.2, r.1.X, r.1.Y))
    = .ok (.raised .objectiveError, [[0], [1], [1/3]], some [1/16, 9/16]) ∧
    ((designSpace exLine none).map fun sp =>
      let r := runOptimization (exFail sp) { maxIter := some (.fin 3) } 10
        (boInit [[0], [1]] (some [1/16, 9/16]) .none)
      let r' := runOptimization (exFail sp) { maxIter := some (.fin 1) } 10 r.1
      (r'.2, r'.1.X, r'.1.Y))
    = .ok (.done .limit, [[0], [1], [1/3], [1/4]], some [1/16, 9/16, 0]) ∧
    ((designSpace exLine none).map fun sp =>
      let r := runOptimization (exFail sp) { maxIter := some (.fin 3) } 10
        (boInit [[0], [1]] (some [1/16, 9/16]) .none)
      let r' := runOptimization (exFail sp) { maxIter := some (.fin 1) } 10 r.1
      r'.1.results) = .ok (some { yBest := [1/16, 1/16, 0], xOpt := [1/3], fxOpt := 0 }) := by
  decide +kernel

/-- The last case of `C40_failed_objective_partial`: the model of the evaluation time cannot be
fitted; the value of the objective, which did not raise, is lost. -/
example :
    ((designSpace exLine none).map fun sp =>
      let r := runOptimization { exBO sp with costFit := fun _ => .error .linAlg }
        { maxIter := some (.fin 3) } 10 (boInit [[0], [1]] (some [1/16, 9/16]) (.str "evaluation_time"))
      (r.2, r.1.X, r.1.Y)) = .ok (.raised .linAlg, [[0], [1], [1/3]], some [1/16, 9/16]) ∧
    ((designSpace exLine none).map fun sp =>
      let r := runOptimization { exBO sp with costFit := fun _ => .error .linAlg }
        { maxIter := some (.fin 3) } 10 (boInit [[0], [1]] (some [1/16, 9/16]) (.str "evaluation_time"))
      r.1.world.calls.map fun c => (c.1, c.2.toOption)) = .ok [([1/3], some (1/144))] := by
  decide +kernel

/-! ## C41: suggesting does not change the data -/

/-- C41. `suggest_next_locations` leaves the data, the record of evaluations and the cost model
unchanged, whether it succeeds or raises. -/
theorem C41_suggest_keeps_data (env : BOEnv) (c : Option Context) (p i : Option Mat) (s : BOState) :
    let s' := (suggestNext env c p i s).1
    s'.X = s.X ∧ s'.Y = s.Y ∧ s'.world = s.world ∧ s'.cost = s.cost ∧ s'.results = s.results := by
  obtain ⟨ps, fs, h⟩ := suggest_frame (env := env) (c := c) (p := p) (i := i) (s := s)
  simp only [h]
  simp

theorem runStart_sim {env : BOEnv} {obj : Nat → Vec → Py ℚ} {a a' : RunArgs}
    (hc : a.context = a'.context) {s t : BOState} (h : Sim True { s with context := none, timeZero := 0, cumTime := 0 }
      { t with context := none, timeZero := 0, cumTime := 0 }) :
    (runStart env obj a s).2 = (runStart env obj a' t).2 ∧
    (runStart env obj a s).1.X = (runStart env obj a' t).1.X ∧
    (runStart env obj a s).1.Y = (runStart env obj a' t).1.Y ∧
    (runStart env obj a s).1.world = (runStart env obj a' t).1.world ∧
    ((runStart env obj a s).2 = .ok () →
      Sim True (runStart env obj a s).1 (runStart env obj a' t).1 ∧
      (runStart env obj a s).1.numAcq = 0 ∧ (runStart env obj a' t).1.numAcq = 0) := by
  have hw : s.world = t.world := by
    have h1 := h.calls
    have h2 := (h.time trivial).1
    simp only at h1 h2
    cases hs : s.world; cases ht : t.world
    simp_all
  obtain ⟨hX, hY, hcost, hk⟩ : s.X = t.X ∧ s.Y = t.Y ∧ s.cost = t.cost ∧ s.cost.kind ≠ .evaluationTime :=
    ⟨h.X, h.Y, h.cost, h.kind⟩
  clear h
  obtain ⟨X, Y, c, n, p, cost, tz, ct, r, w, fs⟩ := s
  obtain ⟨X', Y', c', n', p', cost', tz', ct', r', w', fs'⟩ := t
  simp only at hw hX hY hcost hk
  subst hw hX hY hcost
  unfold runStart
  cases Y with
  | some Y =>
    refine ⟨rfl, rfl, rfl, rfl, fun _ => ⟨?_, rfl, rfl⟩⟩
    exact { X := rfl, Y := rfl, calls := rfl, context := hc, cost := rfl, kind := hk,
            time := fun _ => ⟨rfl, rfl, rfl⟩ }
  | none =>
    simp only
    rcases evalFunc obj env.clock X w with ⟨w1, e | ⟨ys, ts⟩⟩
    · exact ⟨rfl, rfl, rfl, rfl, fun h => by simp at h⟩
    · simp only [if_neg hk, true_and]
      refine fun _ => ⟨?_, trivial⟩
      exact { X := rfl, Y := rfl, calls := rfl, context := hc, cost := rfl, kind := hk,
              time := fun _ => ⟨rfl, rfl, rfl⟩ }

/-- Runs from two states with the same data, evaluations and clock. -/
theorem run_sim {env : BOEnv} (hd : DataOnly env) (a : RunArgs) (fuel : Nat) {s t : BOState}
    (h : Sim True { s with context := none, timeZero := 0, cumTime := 0 }
      { t with context := none, timeZero := 0, cumTime := 0 }) :
    let r := runOptimization env a fuel s
    let r' := runOptimization env a fuel t
    r.1.X = r'.1.X ∧ r.1.Y = r'.1.Y ∧ r.1.world = r'.1.world ∧ r.2 = r'.2 ∧
      (∀ why, r.2 = .done why → r.1.results = r'.1.results) := by
  have world_eq : ∀ {a b : BOState}, Sim True a b → a.world = b.world := by
    intro a b h
    have h1 := h.calls
    have h2 := (h.time trivial).1
    cases hs : a.world; cases ht : b.world
    simp_all
  simp only
  unfold runOptimization
  cases env.obj with
  | none =>
    have hw := world_eq h
    exact ⟨h.X, h.Y, hw, rfl, fun why hw => by simp at hw⟩
  | some obj =>
    obtain ⟨g1, g2, g3, g4, g5⟩ := runStart_sim (env := env) (obj := obj) (a := a) (a' := a) rfl h
    simp only
    rcases e1 : runStart env obj a s with ⟨s1, r⟩
    rcases e2 : runStart env obj a t with ⟨t1, r'⟩
    rw [e1, e2] at g1 g2 g3 g4 g5
    simp only at g1 g2 g3 g4 g5
    subst g1
    cases r with
    | error e => exact ⟨g2, g3, g4, rfl, fun why hw => by simp at hw⟩
    | ok u =>
      obtain ⟨hs, hn, hn'⟩ := g5 rfl
      obtain ⟨k1, k2⟩ := boLoop_sim (obj := obj) (mi := a.limits.1) (mi' := a.limits.1)
        (mt := a.limits.2) (eps := a.eps) hd fuel hs (Or.inr (by rw [hn, hn']))
        (fun j => by rw [hn, hn']) (Or.inr trivial)
      simp only
      rcases e3 : boLoop env obj a.limits.1 a.limits.2 a.eps fuel s1 with ⟨s2, r⟩
      rcases e4 : boLoop env obj a.limits.1 a.limits.2 a.eps fuel t1 with ⟨t2, r'⟩
      rw [e3, e4] at k1 k2
      simp only at k1 k2
      subst k2
      cases r with
      | raised e => exact ⟨k1.X, k1.Y, world_eq k1, rfl, fun why hw => by simp at hw⟩
      | running => exact ⟨k1.X, k1.Y, world_eq k1, rfl, fun why hw => by simp at hw⟩
      | done why =>
        have hX := k1.X
        have hY := k1.Y
        have hw := world_eq k1
        simp only
        rw [hY, hX]
        cases hY2 : t2.Y with
        | none => exact ⟨hX, hY, hw, rfl, fun why hw => by simp at hw⟩
        | some Y =>
          simp only
          cases computeResults t2.X Y with
          | error e => exact ⟨hX, hY, hw, rfl, fun why hw => by simp at hw⟩
          | ok r => exact ⟨rfl, rfl, hw, rfl, fun why _ => rfl⟩

/-- C41, effect on later runs. If the components of the optimizer depend on the data only, then a run
after `suggest_next_locations` gives the same data, the same evaluations, the same times, the same
outcome and the same results as the run without it. -/
theorem C41_suggest_then_run (env : BOEnv) (hd : DataOnly env) (c : Option Context) (p i : Option Mat)
    (a : RunArgs) (fuel : Nat) (s : BOState) (hk : s.cost.kind ≠ .evaluationTime) :
    let r := runOptimization env a fuel (suggestNext env c p i s).1
    let r' := runOptimization env a fuel s
    r.1.X = r'.1.X ∧ r.1.Y = r'.1.Y ∧ r.1.world = r'.1.world ∧ r.2 = r'.2 ∧
      (∀ why, r.2 = .done why → r.1.results = r'.1.results) := by
  obtain ⟨ps, fs, h⟩ := suggest_frame (env := env) (c := c) (p := p) (i := i) (s := s)
  simp only [h]
  exact run_sim hd a fuel
    { X := rfl, Y := rfl, calls := rfl, context := rfl, cost := rfl, kind := hk,
      time := fun _ => ⟨rfl, rfl, rfl⟩ }

/-- The hypotheses of `C41_suggest_then_run` and `C45_stepwise_run` are met by the example. -/
theorem exBO_dataOnly (sp : Space) : DataOnly (exBO sp) where
  fit := ⟨fun _ _ => .ok (), fun _ _ _ => rfl⟩
  params := fun _ => ⟨_, rfl⟩
  suggest := ⟨fun _ X _ _ _ => .ok [[1 / ((X.length : ℚ) + 1)]], fun _ _ _ => rfl⟩

example : ((designSpace exLine none).map fun sp =>
      let q := suggestNext (exBO sp) none none none (boInit [[0], [1]] (some [1, 2]) .none)
      (q.2, q.1.X, (runOptimization (exBO sp) { maxIter := some (.fin 2) } 10 q.1).1.X))
    = .ok (.ok [[1/3]], [[0], [1]], [[0], [1], [1/3], [1/4]]) := by decide +kernel

/-! ## C42, C43: model updates and recorded parameters -/

theorem updateModel_error_params {env : BOEnv} {s s1 : BOState} {e : Err}
    (h : updateModel env s = (s1, .error e)) : s1.params = s.params := by
  have hsave : ∀ {s s1 : BOState} {e}, saveParams env s = (s1, .error e) → s1.params = s.params := by
    intro s s1 e h
    unfold saveParams at h
    cases hp : env.params s with
    | error e => simp only [hp, Prod.mk.injEq] at h; rw [← h.1]
    | ok p =>
      simp only [hp] at h
      cases hq : s.params <;> simp [hq] at h
  unfold updateModel at h
  split_ifs at h with h0 h1
  · simp only [Prod.mk.injEq] at h; rw [← h.1]
  · cases hx : env.sp.unzipInputs s.X with
    | error e => simp only [hx, Prod.mk.injEq] at h; rw [← h.1]
    | ok Xm =>
      cases hY : s.Y with
      | none => simp only [hx, hY, Prod.mk.injEq] at h; rw [← h.1]
      | some Y =>
        simp only [hx, hY] at h
        cases hf : env.fit s Xm (env.modelY Y) with
        | error e => simp only [hf, Prod.mk.injEq] at h; rw [← h.1]
        | ok u =>
          simp only [hf] at h
          rw [hsave h]
  · exact hsave h

/-- the numbers below `K` that are multiples of the interval -/
def multiples (interval : Int) (K : Nat) : List Nat :=
  (List.range K).filter fun i => decide (interval ∣ (i : Int))

theorem multiples_eq (interval : Int) (K : Nat) :
    multiples interval K = ((List.range K).map (0 + ·)).filter
      (fun i : Nat => decide ((i : Int) % interval = 0)) := by
  have : (List.range K).map (0 + ·) = List.range K := by
    rw [show (fun x : Nat => 0 + x) = id by funext x; simp]; simp
  rw [this]
  unfold multiples
  congr 1
  funext i
  exact decide_eq_decide.2 Int.dvd_iff_emod_eq_zero

/-- C42. A completed run performed batches `bs` (locations and outputs). The model was refitted (or
its fit failed, which ends the run) exactly at the acquisitions whose number is a multiple of
`model_update_interval`, and the fit at acquisition `i` used all the data collected before it: the
initial data and the first `i` batches, encoded, with outputs normalized if requested. When the run
ends by time no fit follows the last acquisition; otherwise the round after it counts. -/
theorem C42_update_interval (env : BOEnv) (a : RunArgs) (fuel : Nat) (s s' : BOState) (why : Stop)
    (h : runOptimization env a fuel s = (s', .done why)) :
    ∃ (bs : List (Mat × Vec)) (Y0 : Vec) (F : List Fit) (K : Nat),
      s'.X = s.X ++ (bs.map Prod.fst).flatten ∧ s'.Y = some (Y0 ++ (bs.map Prod.snd).flatten) ∧
      s'.numAcq = bs.length ∧
      s'.fits = s.fits ++ F ∧ F.map Fit.acq = multiples env.interval K ∧
      (∀ f ∈ F, env.sp.unzipInputs (s.X ++ ((bs.take f.acq).map Prod.fst).flatten) = .ok f.X ∧
        f.Y = if env.normalizeY then env.normalize (Y0 ++ ((bs.take f.acq).map Prod.snd).flatten)
          else Y0 ++ ((bs.take f.acq).map Prod.snd).flatten) ∧
      (why = .time → K = bs.length) ∧ (why = .limit → K = bs.length + 1) ∧
      (why = .fit → K = bs.length + 1 ∨
        K = bs.length ∧ env.sp.unzipInputs s'.X = .error .linAlg) := by
  obtain ⟨obj, s0, bs, sk, s2, Y, r, ho, -, hst, htr, -, hsp, -, -, rfl⟩ := runOptimization_done h
  obtain ⟨Y0, new, hY0, -, -⟩ := hst.Y
  obtain ⟨d1, d2, -, -, -, d6, -⟩ := htr.data hY0
  obtain ⟨F, f1, f2, f3, -⟩ := htr.records hY0
  rw [hst.numAcq] at f2 f3 d6
  rw [← multiples_eq] at f2
  rw [hst.fits] at f1
  rw [hst.X] at f3 d1
  have f3' : ∀ f ∈ F, env.sp.unzipInputs (s.X ++ ((bs.take f.acq).map Prod.fst).flatten) = .ok f.X ∧
        f.Y = if env.normalizeY then env.normalize (Y0 ++ ((bs.take f.acq).map Prod.snd).flatten)
          else Y0 ++ ((bs.take f.acq).map Prod.snd).flatten := fun f hf => by
    obtain ⟨-, h2, h3⟩ := f3 f hf
    exact ⟨h2, h3⟩
  have hfr := hsp.frame
  have hX : s2.X = s.X ++ (bs.map Prod.fst).flatten := by
    obtain ⟨ps, fs, rfl⟩ := hfr; exact d1
  have hY : s2.Y = some (Y0 ++ (bs.map Prod.snd).flatten) := by
    obtain ⟨ps, fs, rfl⟩ := hfr; exact d2
  have hn : s2.numAcq = bs.length := by
    obtain ⟨ps, fs, rfl⟩ := hfr; simpa using d6
  have hkn : sk.numAcq = bs.length := by simpa using d6
  by_cases hw : why = .time
  · refine ⟨bs, Y0, F, bs.length, hX, hY, hn, ?_, f2, f3', fun _ => rfl, ?_, ?_⟩
    · rw [hsp.timeState hw]; exact f1
    · rw [hw]; simp
    · rw [hw]; simp
  · have hs2 := hsp.update hw
    have hnz : (updateModel env sk).2 ≠ .error .zeroDivision := by
      intro hz
      have : why = .fit ∨ why = .limit := by cases why <;> simp_all
      rcases this with hc | hc
      · rw [(hsp.fit.1 hc).2] at hz; cases hz
      · rw [(hsp.limit.1 hc).2.1] at hz; cases hz
    have hfits : s2.fits = s.fits ++ (F ++ newFits env sk) := by
      rw [hs2, updateModel_fits (env := env) (s := sk) (s1 := (updateModel env sk).1) (r := (updateModel env sk).2) (by rfl) hnz,
        f1, List.append_assoc]
    have hnew : ∀ f ∈ newFits env sk,
        env.sp.unzipInputs (s.X ++ ((bs.take f.acq).map Prod.fst).flatten) = .ok f.X ∧
        f.Y = if env.normalizeY then env.normalize (Y0 ++ ((bs.take f.acq).map Prod.snd).flatten)
          else Y0 ++ ((bs.take f.acq).map Prod.snd).flatten := by
      intro f hf
      obtain ⟨e1, e2, Y', e3, e4⟩ := newFits_mem hf
      rw [d2] at e3
      injection e3 with e3
      rw [e1, hkn, List.take_length]
      refine ⟨by rw [← hX, ← e2]; congr 1; rw [d1, hX]; rfl, ?_⟩
      rw [e4, ← e3]; rfl
    have hall : ∀ f ∈ F ++ newFits env sk,
        env.sp.unzipInputs (s.X ++ ((bs.take f.acq).map Prod.fst).flatten) = .ok f.X ∧
        f.Y = if env.normalizeY then env.normalize (Y0 ++ ((bs.take f.acq).map Prod.snd).flatten)
          else Y0 ++ ((bs.take f.acq).map Prod.snd).flatten := by
      intro f hf
      rcases List.mem_append.1 hf with hf | hf
      · exact f3' f hf
      · exact hnew f hf
    have hsucc : multiples env.interval (bs.length + 1) = multiples env.interval bs.length ++
        (if env.interval ∣ (bs.length : Int) then [bs.length] else []) := by
      unfold multiples
      rw [List.range_succ, List.filter_append]
      congr 1
      split_ifs with hd <;> simp [hd]
    by_cases hnil : newFits env sk = [] ∧ env.interval ∣ (bs.length : Int)
    · -- the inputs could not be encoded
      have hux : ∃ e, env.sp.unzipInputs sk.X = .error e := by
        by_contra hno
        push Not at hno
        have hd : (sk.numAcq : Int) % env.interval = 0 := by
          rw [hkn]; exact Int.dvd_iff_emod_eq_zero.1 hnil.2
        cases hx : env.sp.unzipInputs sk.X with
        | error e => exact hno e hx
        | ok Xm => have := hnil.1; simp [newFits, hd, hx, d2] at this
      obtain ⟨e, hux⟩ := hux
      have hres : (updateModel env sk).2 = .error e := by
        have hd : (sk.numAcq : Int) % env.interval = 0 := by
          rw [hkn]; exact Int.dvd_iff_emod_eq_zero.1 hnil.2
        unfold updateModel
        split_ifs with h0
        · exfalso; apply hnz; unfold updateModel; rw [if_pos h0]
        · simp [hux]
      refine ⟨bs, Y0, F, bs.length, hX, hY, hn, ?_, f2, f3', fun _ => rfl, ?_, ?_⟩
      · rw [hfits, hnil.1, List.append_nil]
      · intro hc; rw [(hsp.limit.1 hc).2.1] at hres; cases hres
      · intro hc
        right
        rw [(hsp.fit.1 hc).2] at hres
        injection hres with hres
        refine ⟨rfl, ?_⟩
        simp only [hres]
        rw [← hux]
        congr 1
        rw [hX, d1]; rfl
    · refine ⟨bs, Y0, F ++ newFits env sk, bs.length + 1, hX, hY, hn, hfits, ?_, hall,
        fun hc => absurd hc hw, fun _ => rfl, fun _ => Or.inl rfl⟩
      rw [List.map_append, f2, hsucc]
      congr 1
      by_cases hd : env.interval ∣ (bs.length : Int)
      · have hne : newFits env sk ≠ [] := fun h => hnil ⟨h, hd⟩
        rw [if_pos hd]
        have hd' : (sk.numAcq : Int) % env.interval = 0 := by
          rw [hkn]; exact Int.dvd_iff_emod_eq_zero.1 hd
        unfold newFits at hne ⊢
        rw [if_pos hd'] at hne ⊢
        cases hx : env.sp.unzipInputs sk.X with
        | error e => simp [hx] at hne
        | ok Xm => simp [d2, hkn]
      · rw [if_neg hd, newFits_nil]
        · rfl
        · rw [hkn]; exact fun h => hd (Int.dvd_iff_emod_eq_zero.2 h)

/-- C43. The number of recorded parameter rows after a completed run: one per acquisition, and one
more if the run ended by the iteration budget or by two equal locations. -/
theorem C43_parameter_rows (env : BOEnv) (a : RunArgs) (fuel : Nat) (s s' : BOState) (why : Stop)
    (h : runOptimization env a fuel s = (s', .done why)) :
    (s'.params.getD []).length = s'.numAcq + if why = .limit then 1 else 0 := by
  obtain ⟨obj, s0, bs, sk, s2, Y, r, ho, -, hst, htr, -, hsp, -, -, rfl⟩ := runOptimization_done h
  obtain ⟨Y0, new, hY0, -, -⟩ := hst.Y
  obtain ⟨-, -, -, -, -, d6, -⟩ := htr.data hY0
  obtain ⟨F, -, -, -, f4⟩ := htr.records hY0
  rw [hst.params, Option.getD_none, List.length_nil, Nat.zero_add] at f4
  rw [hst.numAcq, Nat.zero_add] at d6
  have hn : s2.numAcq = bs.length := by
    obtain ⟨ps, fs, rfl⟩ := hsp.frame; exact d6
  simp only [hn]
  cases why with
  | time => rw [hsp.timeState rfl]; simp [f4]
  | fit =>
    rw [hsp.update (by simp)]
    have := (hsp.fit.1 rfl).2
    rcases hu : updateModel env sk with ⟨s1, r⟩
    rw [hu] at this
    simp only at this
    subst this
    rw [updateModel_error_params hu]
    simp [f4]
  | limit =>
    rw [hsp.update (by simp)]
    have := (hsp.limit.1 rfl).2.1
    rcases hu : updateModel env sk with ⟨s1, r⟩
    rw [hu] at this
    simp only at this
    subst this
    obtain ⟨p, rfl⟩ := updateModel_ok hu
    simp [f4]

/-- The rows of parameters recorded so far: row `i` holds the parameters after the fits up to
acquisition `i`. -/
structure RowsOf (g : List Fit → Py Vec) (old F : List Fit) (n : Nat) (rows : List Vec) : Prop where
  acq : ∀ f ∈ F, f.acq < n
  length : rows.length = n
  row : ∀ (i : Nat) (p : Vec), rows[i]? = some p →
    g (old ++ F.filter fun f => decide (f.acq ≤ i)) = .ok p

theorem RowsOf.update {env : BOEnv} {g : List Fit → Py Vec} {old F : List Fit} {s s1 : BOState}
    (hg : ∀ s : BOState, env.params s = g s.fits)
    (h : RowsOf g old F s.numAcq (s.params.getD [])) (hf : s.fits = old ++ F)
    (hu : updateModel env s = (s1, .ok ())) :
    RowsOf g old (F ++ newFits env s) (s.numAcq + 1) (s1.params.getD []) := by
  obtain ⟨p, hp, hs1⟩ := updateModel_saved hu
  have hnew : ∀ f ∈ newFits env s, f.acq = s.numAcq := fun f hf => (newFits_mem hf).1
  rw [hg] at hp
  simp only [hf] at hp
  refine ⟨?_, by simp [hs1, h.length], ?_⟩
  · intro f hf
    rcases List.mem_append.1 hf with hf | hf
    · have := h.acq f hf; omega
    · have := hnew f hf; omega
  · intro i q hi
    rw [hs1, Option.getD_some] at hi
    rw [List.filter_append]
    rcases Nat.lt_or_ge i s.numAcq with hlt | hge
    · rw [List.getElem?_append_left (by rw [h.length]; exact hlt)] at hi
      have : (newFits env s).filter (fun f => decide (f.acq ≤ i)) = [] :=
        List.filter_eq_nil_iff.2 fun f hf => by have := hnew f hf; simp; omega
      rw [this, List.append_nil]
      exact h.row i q hi
    · rw [List.getElem?_append_right (by rw [h.length]; exact hge), h.length] at hi
      have hi0 : i - s.numAcq = 0 := by
        by_contra hne
        rw [List.getElem?_eq_none (by simp; omega)] at hi
        simp at hi
      rw [hi0] at hi
      simp only [List.getElem?_cons_zero, Option.some.injEq] at hi
      subst hi
      rw [List.filter_eq_self.2 fun f hf => by have := h.acq f hf; simp; omega,
        List.filter_eq_self.2 fun f hf => by have := hnew f hf; simp; omega, ← List.append_assoc]
      exact hp

theorem Trace.rows {env : BOEnv} {obj : Nat → Vec → Py ℚ} {mi mt : Limit} {eps : ℚ}
    {g : List Fit → Py Vec} {old : List Fit} (hg : ∀ s : BOState, env.params s = g s.fits)
    {s s' : BOState} {bs : List (Mat × Vec)} (h : Trace env obj mi mt eps s bs s') :
    ∀ F, s.fits = old ++ F → RowsOf g old F s.numAcq (s.params.getD []) →
      ∃ F', s'.fits = old ++ F' ∧ RowsOf g old F' s'.numAcq (s'.params.getD []) := by
  induction h with
  | nil s => exact fun F h1 h2 => ⟨F, h1, h2⟩
  | @cons s s1 s' m ys bs hr hs ht ih =>
    intro F h1 h2
    have hu : updateModel env s = ((updateModel env s).1, .ok ()) := by rw [← hs.fitted]
    have := RowsOf.update hg h2 h1 hu
    rw [← hs.saved, ← hs.numAcq] at this
    exact ih _ (by rw [hs.fits, h1, List.append_assoc]) this

/-- C43 (values). If the parameters reported by the model depend on the fits made, then the `i`-th
recorded row holds the parameters the model had when acquisition `i` was optimized: those after the
fits made before the run and the fits of the run up to acquisition `i`. -/
theorem C43_parameter_values (env : BOEnv) (g : List Fit → Py Vec)
    (hg : ∀ s : BOState, env.params s = g s.fits)
    (a : RunArgs) (fuel : Nat) (s s' : BOState) (why : Stop)
    (h : runOptimization env a fuel s = (s', .done why)) :
    ∃ F, s'.fits = s.fits ++ F ∧
      ∀ (i : Nat) (p : Vec), (s'.params.getD [])[i]? = some p →
        g (s.fits ++ F.filter fun f => decide (f.acq ≤ i)) = .ok p := by
  obtain ⟨obj, s0, bs, sk, s2, Y, r, ho, -, hst, htr, -, hsp, -, -, rfl⟩ := runOptimization_done h
  obtain ⟨F, hF, hrows⟩ := Trace.rows (old := s.fits) hg htr [] (by rw [hst.fits, List.append_nil])
    ⟨by simp, by simp [hst.params, hst.numAcq], by simp [hst.params]⟩
  by_cases ht : why = .time
  · rw [hsp.timeState ht]
    exact ⟨F, hF, hrows.row⟩
  · rw [hsp.update ht]
    rcases hu : updateModel env sk with ⟨s1, r⟩
    cases r with
    | ok u =>
      have := RowsOf.update hg hrows hF hu
      obtain ⟨p, rfl⟩ := updateModel_ok hu
      exact ⟨_, by simp [hF], this.row⟩
    | error e =>
      have hz : e ≠ .zeroDivision := by
        rintro rfl
        cases why with
        | time => exact ht rfl
        | fit => have := (hsp.fit.1 rfl).2; rw [hu] at this; simp at this
        | limit => have := (hsp.limit.1 rfl).2.1; rw [hu] at this; simp at this
      refine ⟨F ++ newFits env sk, by simp [updateModel_fits hu (by simpa using hz), hF], ?_⟩
      intro i p hi
      simp only [updateModel_error_params hu] at hi
      have hlt : i < sk.numAcq := by
        rw [← hrows.length]
        by_contra hge
        rw [List.getElem?_eq_none (by omega)] at hi
        simp at hi
      have : (newFits env sk).filter (fun f => decide (f.acq ≤ i)) = [] :=
        List.filter_eq_nil_iff.2 fun f hf => by have := (newFits_mem hf).1; simp; omega
      rw [List.filter_append, this, List.append_nil]
      exact hrows.row i p hi

/-- the model of `exBO` reports the number of its fits -/
example (sp : Space) (s : BOState) : (exBO sp).params s = (fun fs => .ok [(fs.length : ℚ)]) s.fits :=
  rfl

/-! ## C45: stepwise runs -/

/-- C45. If the model is refitted at every iteration and the components depend on the data only, then
`n` iterations followed by `m` iterations give the same data, the same evaluations and the same
results as `n + m` iterations, without a time limit. -/
theorem C45_stepwise_run (env : BOEnv) (hd : DataOnly env) (hI : env.interval = 1)
    (n m : Nat) (eps : ℚ) (c : Option Context) (fuel1 fuel2 : Nat) (s s1 s2 : BOState) (w1 w2 : Stop)
    (hk : s.cost.kind ≠ .evaluationTime)
    (h1 : runOptimization env { maxIter := some (.fin n), eps := eps, context := c } fuel1 s
      = (s1, .done w1))
    (h2 : runOptimization env { maxIter := some (.fin m), eps := eps, context := c } fuel2 s1
      = (s2, .done w2)) :
    ∃ t, runOptimization env { maxIter := some (.fin (n + m : Nat)), eps := eps, context := c }
        (fuel1 + fuel2) s = (t, .done w2) ∧
      t.X = s2.X ∧ t.Y = s2.Y ∧ t.world.calls = s2.world.calls ∧ t.results = s2.results := by
  unfold runOptimization at h1 h2 ⊢
  cases ho : env.obj with
  | none => simp [ho] at h1
  | some obj =>
    simp only [ho] at h1 h2 ⊢
    have hlim : ∀ N : Nat, RunArgs.limits { maxIter := some (.fin N), eps := eps, context := c }
        = (.fin N, .inf) := fun _ => rfl
    rw [hlim] at h1 h2 ⊢
    simp only at h1 h2 ⊢
    have hstart : ∀ (N : Nat) s, runStart env obj { maxIter := some (.fin N), eps := eps, context := c } s
        = runStart env obj { maxIter := some (.fin n), eps := eps, context := c } s := fun _ _ => rfl
    rw [hstart (n + m)]
    rw [hstart m] at h2
    rcases e1 : runStart env obj { maxIter := some (.fin n), eps := eps, context := c } s with ⟨s0, r⟩
    rw [e1] at h1
    cases r with
    | error e => simp at h1
    | ok u =>
      simp only at h1 ⊢
      have hst := runStart_ok e1
      have hk0 : s0.cost.kind ≠ .evaluationTime := by
        cases hY : s.Y with
        | some Y => rw [hst.cost (by rw [hY]; simp)]; exact hk
        | none =>
          unfold runStart at e1
          simp only [hY] at e1
          rcases he : evalFunc obj env.clock s.X s.world with ⟨w, r⟩
          rw [he] at e1
          cases r with
          | error e => simp at e1
          | ok p =>
            simp only [if_neg hk, Prod.mk.injEq] at e1
            rw [← e1.1]; exact hk
      rcases e2 : boLoop env obj (.fin n) .inf eps fuel1 s0 with ⟨sa, r⟩
      rw [e2] at h1
      cases r with
      | raised e => simp at h1
      | running => simp at h1
      | done why =>
        simp only at h1
        obtain ⟨Y0, new, hY0, -, -⟩ := hst.Y
        obtain ⟨-, ⟨Ya, hYa, -⟩, -⟩ := boLoop_prefix e2 hY0
        simp only [hYa] at h1
        cases hr : computeResults sa.X Ya with
        | error e => simp [hr] at h1
        | ok res =>
          simp only [hr, Prod.mk.injEq, RunResult.done.injEq] at h1
          obtain ⟨hs1, rfl⟩ := h1
          have hs1Y : s1.Y = some Ya := by rw [← hs1]
          -- second run
          rcases e3 : runStart env obj { maxIter := some (.fin n), eps := eps, context := c } s1
            with ⟨sb, r⟩
          rw [e3] at h2
          cases r with
          | error e => simp at h2
          | ok u =>
            simp only at h2
            have hst' := runStart_ok e3
            have hYb : sb.Y = some Ya := by
              have := (runStart_frame e3).2.1 Ya hs1Y; exact this
            have hcalls : sb.world.calls = s1.world.calls := by
              obtain ⟨Yb, newb, -, hc, hcase⟩ := hst'.Y
              rcases hcase with ⟨-, rfl⟩ | ⟨hn, -⟩
              · simpa using hc
              · rw [hs1Y] at hn; cases hn
            have hsim : Sim False sa sb := by
              refine { X := ?_, Y := ?_, calls := ?_, context := ?_, cost := ?_, kind := ?_,
                       time := fun h => h.elim }
              · rw [hst'.X, ← hs1]
              · rw [hYb, hYa]
              · rw [hcalls, ← hs1]
              · rw [hst'.context]
                obtain ⟨bs, sk, htr, -, hend⟩ := boLoop_trace e2
                obtain ⟨-, -, -, -, -, -, d7, -⟩ := htr.data hY0
                obtain ⟨ps, fs, rfl⟩ := (boRound_stop hend).frame
                rw [← hst.context]; exact d7
              · rw [hst'.cost (by rw [hs1Y]; simp), ← hs1]
              · obtain ⟨k1, -⟩ := boLoop_sim (T := False) (obj := obj) (mi := .fin n) (mi' := .fin n)
                  (mt := .inf) (eps := eps) hd fuel1 (s := s0) (t := s0)
                  { X := rfl, Y := rfl, calls := rfl, context := rfl, cost := rfl, kind := hk0,
                    time := fun h => h.elim } (Or.inl hI) (fun _ => rfl) (Or.inl rfl)
                rw [e2] at k1
                exact k1.kind
            rcases e4 : boLoop env obj (.fin m) .inf eps fuel2 sb with ⟨sc, r⟩
            rw [e4] at h2
            cases r with
            | raised e => simp at h2
            | running => simp at h2
            | done why2 =>
              have hf2 : 1 ≤ fuel2 := by
                rcases fuel2 with _ | k
                · simp [boLoop] at e4
                · omega
              obtain ⟨q1, q2⟩ := boLoop_split (T := False) (s := s0) (t := s0) hd hI
                { X := rfl, Y := rfl, calls := rfl, context := rfl, cost := rfl, kind := hk0,
                  time := fun h => h.elim } rfl (by rw [hst.numAcq]; omega) e2 hsim hst'.numAcq hf2
                (by rw [e4]; simp)
              rw [e4] at q1 q2
              rcases e5 : boLoop env obj (.fin ((n + m : Nat) : ℚ)) .inf eps (fuel1 + fuel2) s0
                with ⟨t1, r⟩
              rw [e5] at q1 q2
              simp only at q1 q2 h2 ⊢
              subst q2
              simp only
              rw [q1.Y, q1.X]
              cases hYc : sc.Y with
              | none => simp [hYc] at h2
              | some Yc =>
                simp only [hYc] at h2 ⊢
                cases hr2 : computeResults sc.X Yc with
                | error e => simp [hr2] at h2
                | ok res2 =>
                  simp only [hr2, Prod.mk.injEq, RunResult.done.injEq] at h2
                  obtain ⟨hs2, rfl⟩ := h2
                  simp only
                  refine ⟨_, rfl, ?_, ?_, ?_, ?_⟩
                  · rw [← hs2]
                  · rw [← hs2]
                  · rw [← hs2]; exact q1.calls
                  · rw [← hs2]

/-- The example with an update at every iteration meets the hypotheses: 2 + 1 iterations. -/
example : ((designSpace exLine none).map fun sp =>
      let env := { exBO sp with interval := 1 }
      let r1 := runOptimization env { maxIter := some (.fin 2) } 10 (boInit [[0], [1]] none .none)
      let r2 := runOptimization env { maxIter := some (.fin 1) } 10 r1.1
      (r1.2, r2.2, r2.1.X)) = .ok (.done .limit, .done .limit, [[0], [1], [1/3], [1/4], [1/5]]) := by
  decide +kernel

/-! ## C46: maximization -/

/-- C46. `BayesianOptimization(f, maximize=True)` without initial outputs: the reported optimum is at
an evaluated location `x_opt`, and `-fx_opt` is the value of `f` there and the largest value of `f`
over all evaluated locations. -/
theorem C46_maximization (env : BOEnv) (f : Nat → Vec → Py ℚ) (hobj : env.obj = some (signed true f))
    (a : RunArgs) (fuel : Nat) (X : Mat) (cost : CostArg) (s' : BOState) (why : Stop)
    (h : runOptimization env a fuel (boInit X none cost) = (s', .done why)) :
    ∃ (r : Results) (i : Nat), s'.results = some r ∧ s'.X[i]? = some r.xOpt ∧
      f i r.xOpt = .ok (-r.fxOpt) ∧
      ∀ (j : Nat) (x : Vec), s'.X[j]? = some x → ∃ v, f j x = .ok v ∧ v ≤ -r.fxOpt := by
  obtain ⟨r, Y, i, hr, hY, hmin, hYi, hXi, -⟩ := C39_reported_optimum env a fuel _ s' why h
  obtain ⟨obj, Y0, new, bs, ho, hcase, d1, d2, d3, d4, d5, -⟩ := run_data h
  rw [hobj] at ho
  injection ho with ho
  subst ho
  rcases hcase with ⟨h0, -⟩ | ⟨-, hnew, hlen⟩
  · cases h0
  have hX0 : (boInit X none cost).X = X := rfl
  have hl : Logged (signed true f) s'.world := d5 (by intro k x v hk; simp [boInit] at hk)
  have hcalls : s'.world.calls = callsOf s'.X Y := by
    rw [hY] at d2
    injection d2 with d2
    rw [d4, d2, d1, callsOf_append (by rw [hlen]), hnew]
    simp [boInit]
  have hval : ∀ (j : Nat) (x : Vec), s'.X[j]? = some x → ∃ y, Y[j]? = some y ∧ f j x = .ok (-y) := by
    intro j x hj
    have hlenY : Y.length = s'.X.length := by
      rw [hY] at d2; injection d2 with d2
      rw [d2, d1]; simp [d3, hlen]
    have hjlt : j < Y.length := by
      rw [hlenY]; exact (List.getElem?_eq_some_iff.1 hj).1
    refine ⟨Y[j], List.getElem?_eq_getElem hjlt, ?_⟩
    have hc : s'.world.calls[j]? = some (x, .ok Y[j]) := by
      rw [hcalls]
      unfold callsOf
      rw [List.getElem?_zip_eq_some]
      exact ⟨hj, by simp [hjlt]⟩
    have := hl j _ _ hc
    simp only [signed, if_true] at this
    cases hf : f j x with
    | error e => simp [hf, Except.map] at this
    | ok v =>
      simp only [hf, Except.map, Except.ok.injEq] at this
      rw [← this]; simp
  refine ⟨r, i, hr, hXi, ?_, ?_⟩
  · obtain ⟨y, hy, hf⟩ := hval i _ hXi
    rw [hYi] at hy
    injection hy with hy
    rw [hf, hy]
  · intro j x hj
    obtain ⟨y, hy, hf⟩ := hval j x hj
    exact ⟨-y, hf, neg_le_neg (hmin.2 y (List.mem_of_getElem? hy))⟩

/-- The objective `x ↦ x` is maximized: -fx_opt = 1 at x_opt = 1. -/
example : ((designSpace exLine none).map fun sp =>
      let env := { exBO sp with obj := some (signed true fun _ x => .ok (x.headD 0)) }
      let r := runOptimization env { maxIter := some (.fin 2) } 10 (boInit [[0], [1]] none .none)
      (r.2, r.1.Y, r.1.results.map fun q => (q.xOpt, q.fxOpt)))
    = .ok (.done .limit, some [0, -1, -1/3, -1/4], some ([1], -1)) := by decide +kernel

/-- C46, why initial outputs must not be supplied by the user: they are not negated. The objective is
`x ↦ x`, given at 0 and 1; the reported maximum is at 1/3. -/
theorem C46_user_outputs_counterexample :
    ((designSpace exLine none).map fun sp =>
      let env := { exBO sp with obj := some (signed true fun _ x => .ok (x.headD 0)) }
      let r := runOptimization env { maxIter := some (.fin 2) } 10 (boInit [[0], [1]] (some [0, 1]) .none)
      (r.2, r.1.Y, r.1.results.map fun q => (q.xOpt, q.fxOpt)))
    = .ok (.done .limit, some [0, 1, -1/3, -1/4], some ([1/3], -1/3)) := by decide +kernel

/-! ## C47: saved evaluations -/

/-- C47. `save_evaluations` succeeds exactly when there are as many outputs as locations; the table
then has one line per evaluation: its number (from 1), its output and its location. -/
theorem C47_saved_evaluations (X : Mat) (Y : Vec) :
    ((∃ t, saveEvaluations X Y = .ok t) ↔ X.length = Y.length) ∧
    ∀ header rows, saveEvaluations X Y = .ok (header, rows) →
      rows.length = Y.length ∧
      (∀ (i : Nat) (row : Vec), rows[i]? = some row → ∃ x y, X[i]? = some x ∧ Y[i]? = some y ∧
        row = ((i : ℚ) + 1) :: y :: x) ∧
      rows.map (List.drop 2) = X ∧ rows.map (fun r => (r.drop 1).headD 0) = Y ∧
      header.length = 2 + (X.headD []).length := by
  unfold saveEvaluations
  refine ⟨?_, ?_⟩
  · split_ifs with h <;> simp [h]
  · intro header rows h
    split_ifs at h with hl
    simp only [Except.ok.injEq, Prod.mk.injEq] at h
    obtain ⟨rfl, rfl⟩ := h
    have hrow : ∀ (i : Nat) (row : Vec), (List.zipWith (fun (k : Nat) (yx : ℚ × Vec) => ((k : ℚ) + 1) :: yx.1 :: yx.2)
        (List.range Y.length) (List.zip Y X))[i]? = some row → ∃ x y, X[i]? = some x ∧ Y[i]? = some y ∧
        row = ((i : ℚ) + 1) :: y :: x := by
      intro i row hi
      rw [List.getElem?_zipWith_eq_some] at hi
      obtain ⟨k, ⟨y, x⟩, h1, h2, h3⟩ := hi
      rw [List.getElem?_zip_eq_some] at h2
      have hk : k = i := by
        obtain ⟨hlt, hk⟩ := List.getElem?_eq_some_iff.1 h1
        simpa using hk.symm
      exact ⟨x, y, h2.2, h2.1, by rw [← h3, hk]⟩
    have hlen : (List.zipWith (fun (k : Nat) (yx : ℚ × Vec) => ((k : ℚ) + 1) :: yx.1 :: yx.2)
        (List.range Y.length) (List.zip Y X)).length = Y.length := by
      simp [hl]
    refine ⟨hlen, hrow, ?_, ?_, by simp; omega⟩
    · apply List.ext_getElem
      · simp [hl]
      · intro i h1 h2
        rw [List.getElem_map]
        obtain ⟨x, y, hx, hy, hr⟩ := hrow i _ (List.getElem?_eq_getElem (by simpa using h1))
        rw [hr]
        rw [List.getElem?_eq_getElem h2] at hx
        injection hx with hx
        simp [hx]
    · apply List.ext_getElem
      · simp [hl]
      · intro i h1 h2
        rw [List.getElem_map]
        obtain ⟨x, y, hx, hy, hr⟩ := hrow i _ (List.getElem?_eq_getElem (by simpa using h1))
        rw [hr]
        rw [List.getElem?_eq_getElem h2] at hy
        injection hy with hy
        simp [hy]

example : saveEvaluations [[3, 4], [5, 6]] [7, 8]
    = .ok (["Iteration", "Y", "var_1", "var_2"], [[1, 7, 3, 4], [2, 8, 5, 6]]) := by decide +kernel

end GPyOpt.Props
