import Verif.Props.Search
import Verif.Props.Csv

/-!
# Property C138: resuming from saved data in a new object
-/

namespace GPyOpt

open Spec

/-- Two states with the same data. -/
structure SameData (s t : BOState) : Prop where
  X : s.X = t.X
  Y : s.Y = t.Y
  context : s.context = t.context
  numAcq : s.numAcq = t.numAcq
  kind : s.cost.kind ≠ .evaluationTime
  kind' : t.cost.kind ≠ .evaluationTime

theorem evalFunc_const {f : Vec → Py ℚ} {clock : Nat → ℚ} {xs : Mat} (w v : World) :
    (evalFunc (fun _ x => f x) clock xs w).2.map Prod.fst = (evalFunc (fun _ x => f x) clock xs v).2.map Prod.fst := by
  induction xs generalizing w v with
  | nil => rfl
  | cons x xs ih =>
    unfold evalFunc
    cases f x with
    | error e => rfl
    | ok y =>
      simp only
      have := ih { calls := w.calls ++ [(x, .ok y)], ticks := w.ticks + 2 }
        { calls := v.calls ++ [(x, .ok y)], ticks := v.ticks + 2 }
      rcases h1 : evalFunc (fun _ x => f x) clock xs { calls := w.calls ++ [(x, .ok y)], ticks := w.ticks + 2 }
        with ⟨w1, r1⟩
      rcases h2 : evalFunc (fun _ x => f x) clock xs { calls := v.calls ++ [(x, .ok y)], ticks := v.ticks + 2 }
        with ⟨w2, r2⟩
      rw [h1, h2] at this
      cases r1 <;> cases r2 <;> simp_all [Except.map]

variable {env : BOEnv} {f : Vec → Py ℚ}

theorem updateModel_same (hd : DataOnly env) {s t : BOState} (h : SameData s t) :
    (updateModel env s).2 = (updateModel env t).2 ∧ SameData (updateModel env s).1 (updateModel env t).1 := by
  have fr : ∀ u : BOState, ∃ ps fs, (updateModel env u).1 = { u with params := ps, fits := u.fits ++ fs } :=
    fun u => updateModel_frame (r := (updateModel env u).2) rfl
  obtain ⟨ps, fs, e1⟩ := fr s
  obtain ⟨ps', fs', e2⟩ := fr t
  refine ⟨?_, ?_⟩
  · obtain ⟨φ, hφ⟩ := hd.fit
    have hsave : ∀ u, (saveParams env u).2 = .ok () := by
      intro u
      unfold saveParams
      obtain ⟨p, hp⟩ := hd.params u
      rw [hp]
      cases u.params <;> rfl
    unfold updateModel
    rw [h.numAcq, h.X, h.Y]
    split_ifs
    · rfl
    · cases env.sp.unzipInputs t.X with
      | error e => rfl
      | ok Xm =>
        cases t.Y with
        | none => rfl
        | some Y =>
          simp only [hφ]
          cases φ Xm (env.modelY Y) with
          | error e => rfl
          | ok u =>
            simp only
            rw [hsave, hsave]
    · rw [hsave, hsave]
  · rw [e1, e2]
    exact ⟨h.X, h.Y, h.context, h.numAcq, h.kind, h.kind'⟩

theorem evaluateObjective_same {s t : BOState} (h : SameData s t) (m : Mat) :
    (evaluateObjective env (fun _ x => f x) s m).2 = (evaluateObjective env (fun _ x => f x) t m).2 ∧
    SameData (evaluateObjective env (fun _ x => f x) s m).1 (evaluateObjective env (fun _ x => f x) t m).1 := by
  have h2 := evalFunc_const (f := f) (clock := env.clock) (xs := m) s.world t.world
  unfold evaluateObjective
  rcases e1 : evalFunc (fun _ x => f x) env.clock m s.world with ⟨w, r⟩
  rcases e2 : evalFunc (fun _ x => f x) env.clock m t.world with ⟨v, r'⟩
  rw [e1, e2] at h2
  simp only at h2
  cases r with
  | error e =>
    cases r' with
    | ok p => simp [Except.map] at h2
    | error e' =>
      simp only [Except.map, Except.error.injEq] at h2
      subst h2
      exact ⟨rfl, h.X, h.Y, h.context, h.numAcq, h.kind, h.kind'⟩
  | ok p =>
    cases r' with
    | error e' => simp [Except.map] at h2
    | ok p' =>
      obtain ⟨ys, ts⟩ := p
      obtain ⟨ys', ts'⟩ := p'
      simp only [Except.map, Except.ok.injEq] at h2
      subst h2
      simp only [update_other h.kind, update_other h.kind']
      rw [h.Y]
      cases t.Y with
      | none => exact ⟨rfl, h.X, rfl, h.context, h.numAcq, h.kind, h.kind'⟩
      | some Y => exact ⟨rfl, h.X, rfl, h.context, h.numAcq, h.kind, h.kind'⟩

/-- Corresponding results of two rounds. -/
inductive RoundSame : Round → Round → Prop
  | next {s t : BOState} : SameData s t → RoundSame (.next s) (.next t)
  | stop {s t : BOState} (why : Stop) : SameData s t → RoundSame (.stop s why) (.stop t why)
  | raised {s t : BOState} (e : Err) : SameData s t → RoundSame (.raised s e) (.raised t e)

theorem boRound_same (hd : DataOnly env) {mi : Limit} {eps : ℚ} {s t : BOState} (h : SameData s t) :
    RoundSame (boRound env (fun _ x => f x) mi .inf eps s) (boRound env (fun _ x => f x) mi .inf eps t) := by
  obtain ⟨hu, hsim⟩ := updateModel_same hd h
  unfold boRound
  have hinf : ∀ q, Limit.inf.exceeds q = true := fun _ => rfl
  rw [if_pos (hinf s.cumTime), if_pos (hinf t.cumTime)]
  rcases e1 : updateModel env s with ⟨s1, r⟩
  rcases e2 : updateModel env t with ⟨t1, r'⟩
  rw [e1, e2] at hu hsim
  simp only at hu hsim
  subst hu
  cases r with
  | error e => cases e <;> first | exact .stop _ hsim | exact .raised _ hsim
  | ok u =>
    simp only
    by_cases hstop : ¬ mi.exceeds (t1.numAcq : ℚ) = true ∨ lastTwoClose eps t1.X = true
    · rw [if_pos hstop, if_pos (by rw [hsim.numAcq, hsim.X]; exact hstop)]
      exact .stop _ hsim
    · rw [if_neg hstop, if_neg (by rw [hsim.numAcq, hsim.X]; exact hstop)]
      have hsug : env.suggest s1 none none = env.suggest t1 none none := by
        obtain ⟨π, hπ⟩ := hd.suggest
        rw [hπ, hπ, hsim.X, hsim.Y, hsim.context]
      rw [hsug]
      cases env.suggest t1 none none with
      | error e => exact .raised _ hsim
      | ok m =>
        simp only
        have hsim' : SameData { s1 with X := s1.X ++ m } { t1 with X := t1.X ++ m } :=
          ⟨by simp only; rw [hsim.X], hsim.Y, hsim.context, hsim.numAcq, hsim.kind, hsim.kind'⟩
        obtain ⟨g1, g2⟩ := evaluateObjective_same (env := env) (f := f) hsim' m
        rcases e3 : evaluateObjective env (fun _ x => f x) { s1 with X := s1.X ++ m } m with ⟨s2, r⟩
        rcases e4 : evaluateObjective env (fun _ x => f x) { t1 with X := t1.X ++ m } m with ⟨t2, r'⟩
        rw [e3, e4] at g1 g2
        simp only at g1 g2
        subst g1
        cases r with
        | error e => exact .raised _ g2
        | ok u => exact .next ⟨g2.X, g2.Y, g2.context, by simp only; rw [g2.numAcq], g2.kind, g2.kind'⟩

theorem boLoop_same (hd : DataOnly env) {mi : Limit} {eps : ℚ} (fuel : Nat) {s t : BOState} (h : SameData s t) :
    SameData (boLoop env (fun _ x => f x) mi .inf eps fuel s).1 (boLoop env (fun _ x => f x) mi .inf eps fuel t).1 ∧
    (boLoop env (fun _ x => f x) mi .inf eps fuel s).2 = (boLoop env (fun _ x => f x) mi .inf eps fuel t).2 := by
  induction fuel generalizing s t with
  | zero => exact ⟨h, rfl⟩
  | succ fuel ih =>
    have hr := boRound_same (f := f) (eps := eps) (mi := mi) hd h
    unfold boLoop
    generalize boRound env (fun _ x => f x) mi .inf eps s = a at hr
    generalize boRound env (fun _ x => f x) mi .inf eps t = b at hr
    cases hr with
    | raised e h1 => exact ⟨h1, rfl⟩
    | stop why h1 => exact ⟨h1, rfl⟩
    | next h1 => exact ih h1

/-- A run depends on the data and the context only. -/
theorem run_same (hd : DataOnly env) (hobj : env.obj = some fun _ x => f x) {n : Nat} {eps : ℚ} {c : Option Context}
    {fuel : Nat} {s t : BOState} (hX : s.X = t.X) {Y : Vec} (hs : s.Y = some Y) (ht : t.Y = some Y)
    (hk : s.cost.kind ≠ .evaluationTime) (hk' : t.cost.kind ≠ .evaluationTime)
    {t' : BOState} {why : Stop}
    (h : runOptimization env { maxIter := some (.fin n), eps := eps, context := c } fuel t = (t', .done why)) :
    ∃ s', runOptimization env { maxIter := some (.fin n), eps := eps, context := c } fuel s = (s', .done why) ∧
      s'.X = t'.X ∧ s'.Y = t'.Y ∧ s'.results = t'.results := by
  unfold runOptimization at h ⊢
  simp only [hobj] at h ⊢
  unfold runStart at h ⊢
  simp only [hs, ht] at h ⊢
  rw [show RunArgs.limits { maxIter := some (.fin n), eps := eps, context := c } = (.fin n, .inf) from rfl] at h ⊢
  simp only at h ⊢
  obtain ⟨h1, h2⟩ := boLoop_same (f := f) (eps := eps) (mi := .fin n) hd fuel
    (s := { s with params := none, context := c, timeZero := env.clock s.world.ticks,
                   world := { s.world with ticks := s.world.ticks + 1 }, cumTime := 0, numAcq := 0 })
    (t := { t with params := none, context := c, timeZero := env.clock t.world.ticks,
                   world := { t.world with ticks := t.world.ticks + 1 }, cumTime := 0, numAcq := 0 })
    ⟨hX, by simp only; rw [hs, ht], rfl, rfl, hk, hk'⟩
  simp only [hs, ht] at h1 h2
  generalize boLoop env (fun _ x => f x) (.fin n) .inf eps fuel _ = a at h1 h2 ⊢
  generalize boLoop env (fun _ x => f x) (.fin n) .inf eps fuel _ = b at h h1 h2
  obtain ⟨s1, r⟩ := a
  obtain ⟨t1, r'⟩ := b
  simp only at h1 h2
  subst h2
  cases r with
  | raised e => simp at h
  | running => simp at h
  | done w =>
    simp only at h ⊢
    rw [h1.Y, h1.X]
    cases hY : t1.Y with
    | none => simp [hY] at h
    | some Y' =>
      simp only [hY] at h ⊢
      cases hr : computeResults t1.X Y' with
      | error e => simp [hr] at h
      | ok res =>
        simp only [hr, Prod.mk.injEq, RunResult.done.injEq] at h
        obtain ⟨rfl, rfl⟩ := h
        exact ⟨_, rfl, rfl, rfl, rfl⟩

/-- The kind of the cost model does not change. -/
theorem run_kind {a : RunArgs} {fuel : Nat} {s s' : BOState} {why : Stop} (hk : s.cost.kind ≠ .evaluationTime)
    (h : runOptimization env a fuel s = (s', .done why)) : s'.cost.kind ≠ .evaluationTime := by
  obtain ⟨obj, s0, bs, sk, s2, Y, r, ho, e1, hst, htr, -, hsp, -, -, rfl⟩ := runOptimization_done h
  have hk0 : s0.cost.kind ≠ .evaluationTime := by
    cases hY : s.Y with
    | some Y => rw [hst.cost (by rw [hY]; simp)]; exact hk
    | none =>
      unfold runStart at e1
      simp only [hY] at e1
      rcases he : evalFunc obj env.clock s.X s.world with ⟨w, r⟩
      rw [he] at e1
      cases r with
      | error e => simp at e1
      | ok p =>
        simp only [if_neg hk, Prod.mk.injEq] at e1
        rw [← e1.1]
        exact hk
  have hkk : ∀ {s bs s'}, Trace env obj a.limits.1 a.limits.2 a.eps s bs s' → s.cost.kind ≠ .evaluationTime →
      s'.cost.kind ≠ .evaluationTime := by
    intro s bs s' ht
    induction ht with
    | nil s => exact id
    | cons hr hs ht ih =>
      intro hk
      obtain ⟨ts, c', hc⟩ := hs.cost
      rw [update_other hk] at hc
      injection hc with hc
      exact ih (hc ▸ hk)
  have hks := hkk htr hk0
  obtain ⟨ps, fs, rfl⟩ := hsp.frame
  exact hks

/-! ## The last fit is determined by the data -/

/-- The suggestion as a function of the data, for a model that has just been fitted to them. -/
def dataEnv (env : BOEnv) (π : Option Context → Mat → Option Vec → Option (Mat × Vec) → Py Mat) : BOEnv :=
  { env with suggest := fun s _ _ => π s.context s.X s.Y (match env.sp.unzipInputs s.X, s.Y with
      | .ok Xm, some Y => some (Xm, env.modelY Y)
      | _, _ => none) }

theorem boRound_dataEnv (hI : env.interval = 1)
    {π : Option Context → Mat → Option Vec → Option (Mat × Vec) → Py Mat}
    (hπ : ∀ s, env.suggest s none none = π s.context s.X s.Y (s.fits.getLast?.map fun f => (f.X, f.Y)))
    (obj : Nat → Vec → Py ℚ) (mi mt : Limit) (eps : ℚ) (s : BOState) :
    boRound (dataEnv env π) obj mi mt eps s = boRound env obj mi mt eps s := by
  have hu : ∀ s, updateModel (dataEnv env π) s = updateModel env s := fun _ => rfl
  have he : ∀ s m, evaluateObjective (dataEnv env π) obj s m = evaluateObjective env obj s m := fun _ _ => rfl
  unfold boRound
  simp only [hu, he]
  split_ifs
  · rcases hup : updateModel env s with ⟨s1, r⟩
    cases r with
    | error x => cases x <;> rfl
    | ok u =>
      simp only
      have hs : (dataEnv env π).suggest s1 none none = env.suggest s1 none none := by
        obtain ⟨Xm, Y, g1, g2, g3, -⟩ := Props.newFits_last hI hup
        obtain ⟨ps, fs, hfr⟩ := updateModel_frame hup
        have hX : s1.X = s.X := by rw [hfr]
        have hY : s1.Y = s.Y := by rw [hfr]
        rw [hπ, g3]
        unfold dataEnv
        simp only [hX, hY, g1, g2]
      rw [hs]
      rfl
  · rfl

theorem run_dataEnv (hI : env.interval = 1)
    {π : Option Context → Mat → Option Vec → Option (Mat × Vec) → Py Mat}
    (hπ : ∀ s, env.suggest s none none = π s.context s.X s.Y (s.fits.getLast?.map fun f => (f.X, f.Y)))
    (a : RunArgs) (fuel : Nat) (s : BOState) :
    runOptimization (dataEnv env π) a fuel s = runOptimization env a fuel s := by
  have hl : ∀ obj mi mt eps fuel s, boLoop (dataEnv env π) obj mi mt eps fuel s = boLoop env obj mi mt eps fuel s := by
    intro obj mi mt eps fuel
    induction fuel with
    | zero => intro s; rfl
    | succ fuel ih =>
      intro s
      unfold boLoop
      rw [boRound_dataEnv hI hπ]
      simp only [ih]
  have hs : ∀ obj a s, runStart (dataEnv env π) obj a s = runStart env obj a s := fun _ _ _ => rfl
  unfold runOptimization
  rw [show (dataEnv env π).obj = env.obj from rfl]
  simp only [hl, hs]

end GPyOpt

namespace GPyOpt.Props

open GPyOpt Spec

/-- **C138** (partial: the model is refitted in every iteration, and suggestions depend on the data and the last fit only).
`n` iterations, followed by `m` iterations of a new object that is given the collected data, give the data and the results
of `n + m` iterations of a single object. -/
theorem C138_resume_partial (env : BOEnv) (hd : LastFit env) (hI : env.interval = 1) (f : Vec → Py ℚ)
    (hobj : env.obj = some fun _ x => f x) (n m : Nat) (eps : ℚ) (c : Option Context) (fuel1 fuel2 : Nat)
    (s s1 s2 : BOState) (w1 w2 : Stop) (hk : s.cost.kind ≠ .evaluationTime)
    (h1 : runOptimization env { maxIter := some (.fin n), eps := eps, context := c } fuel1 s = (s1, .done w1))
    (cost : CostArg) (hc : (costModelInit cost).kind ≠ .evaluationTime)
    (h2 : runOptimization env { maxIter := some (.fin m), eps := eps, context := c } fuel2 (boInit s1.X s1.Y cost)
      = (s2, .done w2)) :
    ∃ t, runOptimization env { maxIter := some (.fin (n + m : Nat)), eps := eps, context := c } (fuel1 + fuel2) s
        = (t, .done w2) ∧ t.X = s2.X ∧ t.Y = s2.Y ∧ t.results = s2.results := by
  obtain ⟨φ, hφ⟩ := hd.fit
  obtain ⟨π, hπ⟩ := hd.suggest
  have hdata : DataOnly (dataEnv env π) :=
    { fit := ⟨φ, hφ⟩
      params := hd.params
      suggest := ⟨fun c X Y _ _ => π c X Y (match env.sp.unzipInputs X, Y with
        | .ok Xm, some Y => some (Xm, env.modelY Y)
        | _, _ => none), fun _ _ _ => rfl⟩ }
  have hI' : (dataEnv env π).interval = 1 := hI
  have hobj' : (dataEnv env π).obj = some fun _ x => f x := hobj
  rw [← run_dataEnv hI hπ] at h1 h2 ⊢
  obtain ⟨obj, s0, bs, sk, s3, Y, r, ho, -, hst, htr, -, hsp, hY3, -, hs1⟩ := runOptimization_done h1
  have hs1Y : s1.Y = some Y := by rw [hs1]; exact hY3
  have hk1 := run_kind hk h1
  obtain ⟨s2', e1, e2, e3, e4⟩ := run_same hdata hobj' (s := s1) (t := boInit s1.X s1.Y cost) rfl hs1Y hs1Y hk1 hc h2
  obtain ⟨t, t1, t2, t3, -, t5⟩ := C45_stepwise_run _ hdata hI' n m eps c fuel1 fuel2 s s1 s2' w1 w2 hk h1 e1
  exact ⟨t, t1, t2.trans e2, t3.trans e3, t5.trans e4⟩

theorem rowNumbers_unique {parse : List Char → Option ℚ} {texts : List (List Char)} {a b : Vec}
    (ha : RowNumbers parse texts a) (hb : RowNumbers parse texts b) : a = b := by
  unfold RowNumbers at *
  induction ha generalizing b with
  | nil => cases hb; rfl
  | cons h _ ih =>
    cases hb with
    | cons h' hb =>
      rw [h] at h'
      rw [Option.some.inj h', ih hb]

/-- A file holds at most one set of evaluations. -/
theorem holds_unique {parse : List Char → Option ℚ} {rows : List (List (List Char))} {X X' : Mat} {Y Y' : Vec}
    (h : HoldsEvaluations parse rows X Y) (h' : HoldsEvaluations parse rows X' Y') : X' = X ∧ Y' = Y := by
  obtain ⟨head, body, rfl, -, l1, l2, h⟩ := h
  obtain ⟨head', body', e, -, l1', l2', h'⟩ := h'
  injection e with _ e
  subst e
  have key : ∀ (i : Nat) (x x' : Vec) (y y' : ℚ), X[i]? = some x → Y[i]? = some y → X'[i]? = some x' →
      Y'[i]? = some y' → x' = x ∧ y' = y := by
    intro i x x' y y' hx hy hx' hy'
    obtain ⟨t, ht, r⟩ := h i x y hx hy
    obtain ⟨t', ht', r'⟩ := h' i x' y' hx' hy'
    rw [ht] at ht'
    obtain rfl := Option.some.inj ht'
    have := rowNumbers_unique r' r
    simp only [List.cons.injEq, true_and] at this
    exact ⟨this.2, this.1⟩
  have get : ∀ i, i < body.length → ∃ x x' y y', X[i]? = some x ∧ Y[i]? = some y ∧ X'[i]? = some x' ∧ Y'[i]? = some y' :=
    fun i hi => ⟨_, _, _, _, List.getElem?_eq_getElem (l1 ▸ hi), List.getElem?_eq_getElem (l2 ▸ hi),
      List.getElem?_eq_getElem (l1' ▸ hi), List.getElem?_eq_getElem (l2' ▸ hi)⟩
  constructor
  · refine List.ext_getElem? fun i => ?_
    by_cases hi : i < body.length
    · obtain ⟨x, x', y, y', hx, hy, hx', hy'⟩ := get i hi
      rw [hx, hx', (key i x x' y y' hx hy hx' hy').1]
    · rw [List.getElem?_eq_none (by omega), List.getElem?_eq_none (by omega)]
  · refine List.ext_getElem? fun i => ?_
    by_cases hi : i < body.length
    · obtain ⟨x, x', y, y', hx, hy, hx', hy'⟩ := get i hi
      rw [hy, hy', (key i x x' y y' hx hy hx' hy').2]
    · rw [List.getElem?_eq_none (by omega), List.getElem?_eq_none (by omega)]

/-- **C138** (partial, as above, where lines end with `\n`). The same if the new object gets what is read from the file with
the evaluations: `rows` are what the csv reader returns, `X` and `Y` the numbers in it. -/
theorem C138_resume_file_partial (env : BOEnv) (hd : LastFit env) (hI : env.interval = 1) (f : Vec → Py ℚ)
    (hobj : env.obj = some fun _ x => f x) (n m : Nat) (eps : ℚ) (c : Option Context) (fuel1 fuel2 : Nat)
    (s s1 s2 : BOState) (w1 w2 : Stop) (hk : s.cost.kind ≠ .evaluationTime)
    (h1 : runOptimization env { maxIter := some (.fin n), eps := eps, context := c } fuel1 s = (s1, .done w1))
    (repr : ℚ → List Char) (parse : List Char → Option ℚ) {Y1 : Vec} (hY1 : s1.Y = some Y1) {t : List String × Mat}
    (ht : saveEvaluations s1.X Y1 = .ok t)
    (hrepr : ∀ r ∈ t.2, ∀ q ∈ r, '\r' ∉ repr q ∧ parse (repr q) = some q)
    {rows : List (List (List Char))} (hrows : readCsv (writeCsv ['\n'] repr t) = .ok rows)
    {X : Mat} {Y : Vec} (hload : HoldsEvaluations parse rows X Y)
    (cost : CostArg) (hc : (costModelInit cost).kind ≠ .evaluationTime)
    (h2 : runOptimization env { maxIter := some (.fin m), eps := eps, context := c } fuel2 (boInit X (some Y) cost)
      = (s2, .done w2)) :
    ∃ t, runOptimization env { maxIter := some (.fin (n + m : Nat)), eps := eps, context := c } (fuel1 + fuel2) s
        = (t, .done w2) ∧ t.X = s2.X ∧ t.Y = s2.Y ∧ t.results = s2.results := by
  obtain ⟨rows', hr, hh⟩ := C137_evaluations_partial repr parse s1.X Y1 ht hrepr
  rw [hrows] at hr
  obtain rfl := Except.ok.inj hr
  obtain ⟨rfl, rfl⟩ := holds_unique hh hload
  rw [← hY1] at h2
  exact C138_resume_partial env hd hI f hobj n m eps c fuel1 fuel2 s s1 s2 w1 w2 hk h1 cost hc h2

/-- **C138, negation.** With a larger `model_update_interval` the resumed run differs: the new object fits the model to all
data, the single object would have waited. One and one iteration, and two iterations. -/
theorem C138_interval_counterexample :
    ((designSpace exLine none).map fun sp =>
      let env := exFitted sp 2
      let s := boInit [[0], [1]] (some [1/16, 9/16]) .none
      let r1 := runOptimization env { maxIter := some (.fin 1) } 10 s
      let r2 := runOptimization env { maxIter := some (.fin 1) } 10 (boInit r1.1.X r1.1.Y .none)
      let r := runOptimization env { maxIter := some (.fin 2) } 20 s
      ((r1.2, r2.2, r.2), r2.1.X, r.1.X))
    = .ok ((.done .limit, .done .limit, .done .limit), [[0], [1], [1/3], [1/4]], [[0], [1], [1/3], [1/3]]) := by
  decide +kernel

/-- The hypotheses are met: one iteration, and one iteration of a new object. -/
example : ((designSpace exLine none).map fun sp =>
      let env := exFitted sp 1
      let s := boInit [[0], [1]] (some [1/16, 9/16]) .none
      let r1 := runOptimization env { maxIter := some (.fin 1) } 10 s
      let r2 := runOptimization env { maxIter := some (.fin 1) } 10 (boInit r1.1.X r1.1.Y .none)
      let r := runOptimization env { maxIter := some (.fin 2) } 20 s
      ((r1.2, r2.2, r.2), r2.1.X, r.1.X))
    = .ok ((.done .limit, .done .limit, .done .limit), [[0], [1], [1/3], [1/4]], [[0], [1], [1/3], [1/4]]) := by
  decide +kernel

end GPyOpt.Props
