import Verif.Lemmas.BO

/-! # Runs from states with the same data -/

namespace GPyOpt

/-- The external components depend on the data (and the arguments of the call) only. -/
structure DataOnly (env : BOEnv) : Prop where
  fit : ∃ φ : Mat → Vec → Py Unit, ∀ s X Y, env.fit s X Y = φ X Y
  params : ∀ s, ∃ p, env.params s = .ok p
  suggest : ∃ π : Option Context → Mat → Option Vec → Option Mat → Option Mat → Py Mat,
    ∀ s p i, env.suggest s p i = π s.context s.X s.Y p i

/-- Two states with the same data (and, if `T`, the same time). -/
structure Sim (T : Prop) (s t : BOState) : Prop where
  X : s.X = t.X
  Y : s.Y = t.Y
  calls : s.world.calls = t.world.calls
  context : s.context = t.context
  cost : s.cost = t.cost
  kind : s.cost.kind ≠ .evaluationTime
  time : T → s.world.ticks = t.world.ticks ∧ s.timeZero = t.timeZero ∧ s.cumTime = t.cumTime

variable {env : BOEnv} {obj : Nat → Vec → Py ℚ} {T : Prop}

theorem evalFunc_sim {clock : Nat → ℚ} {xs : Mat} {w v : World} (h : w.calls = v.calls) :
    (evalFunc obj clock xs w).1.calls = (evalFunc obj clock xs v).1.calls ∧
    ((evalFunc obj clock xs w).2.map Prod.fst) = ((evalFunc obj clock xs v).2.map Prod.fst) ∧
    (w.ticks = v.ticks → evalFunc obj clock xs w = evalFunc obj clock xs v) := by
  refine ⟨?_, ?_, ?_⟩
  rotate_left 2
  · intro ht
    have : w = v := by cases w; cases v; simp_all
    rw [this]
  all_goals
    induction xs generalizing w v with
    | nil => simp [evalFunc, h]
    | cons x xs ih =>
      unfold evalFunc
      rw [← h]
      cases ho : obj w.calls.length x with
      | error e => simp
      | ok y =>
        simp only
        have := ih (w := { calls := w.calls ++ [(x, .ok y)], ticks := w.ticks + 2 })
          (v := { calls := w.calls ++ [(x, .ok y)], ticks := v.ticks + 2 }) rfl
        rcases h1 : evalFunc obj clock xs { calls := w.calls ++ [(x, .ok y)], ticks := w.ticks + 2 }
          with ⟨w1, r1⟩
        rcases h2 : evalFunc obj clock xs { calls := w.calls ++ [(x, .ok y)], ticks := v.ticks + 2 }
          with ⟨w2, r2⟩
        rw [h1, h2] at this
        simp only at this
        cases r1 <;> cases r2 <;> simp_all [Except.map]

theorem updateModel_sim (hd : DataOnly env) {s t : BOState} (h : Sim T s t)
    (hn : env.interval = 1 ∨ s.numAcq = t.numAcq) :
    (updateModel env s).2 = (updateModel env t).2 ∧
    Sim T (updateModel env s).1 (updateModel env t).1 ∧
    (updateModel env s).1.numAcq = s.numAcq ∧ (updateModel env t).1.numAcq = t.numAcq := by
  have fr : ∀ u : BOState, ∃ ps fs, (updateModel env u).1 = { u with params := ps, fits := u.fits ++ fs } :=
    fun u => updateModel_frame (r := (updateModel env u).2) rfl
  obtain ⟨ps, fs, e1⟩ := fr s
  obtain ⟨ps', fs', e2⟩ := fr t
  refine ⟨?_, ?_, by rw [e1], by rw [e2]⟩
  · obtain ⟨φ, hφ⟩ := hd.fit
    have hsave : ∀ u, (saveParams env u).2 = .ok () := by
      intro u
      unfold saveParams
      obtain ⟨p, hp⟩ := hd.params u
      rw [hp]
      cases u.params <;> rfl
    have hcond : (s.numAcq : Int) % env.interval = 0 ↔ (t.numAcq : Int) % env.interval = 0 := by
      rcases hn with hn | hn
      · rw [hn]; simp
      · rw [hn]
    unfold updateModel
    split_ifs with h0 h1 h2 h2
    · rfl
    · rw [h.X, h.Y]
      cases env.sp.unzipInputs t.X with
      | error e => rfl
      | ok Xm =>
        cases t.Y with
        | none => rfl
        | some Y =>
          simp only [hφ]
          cases φ Xm (env.modelY Y) with
          | error e => rfl
          | ok u =>
            simp only
            rw [hsave, hsave]
    · exact absurd (hcond.1 h1) h2
    · exact absurd (hcond.2 h2) h1
    · rw [hsave, hsave]
  · rw [e1, e2]
    exact { X := h.X, Y := h.Y, calls := h.calls, context := h.context, cost := h.cost,
            kind := h.kind, time := h.time }

theorem update_other {lg : ℚ → ℚ} {fit : Py Unit} {c : CostModel} {x : Mat} {t : CostEvals}
    (h : c.kind ≠ .evaluationTime) : c.update lg fit x t = (c, .ok ()) := by
  unfold CostModel.update
  cases hk : c.kind with
  | evaluationTime => exact absurd hk h
  | constant => rfl
  | userDefined => rfl

theorem evaluateObjective_sim {s t : BOState} (h : Sim T s t) (m : Mat) :
    (evaluateObjective env obj s m).2 = (evaluateObjective env obj t m).2 ∧
    Sim T (evaluateObjective env obj s m).1 (evaluateObjective env obj t m).1 ∧
    (evaluateObjective env obj s m).1.numAcq = s.numAcq ∧
    (evaluateObjective env obj t m).1.numAcq = t.numAcq := by
  obtain ⟨h1, h2, h3⟩ := evalFunc_sim (obj := obj) (clock := env.clock) (xs := m) h.calls
  have hk' : t.cost.kind ≠ .evaluationTime := h.cost ▸ h.kind
  unfold evaluateObjective
  rcases e1 : evalFunc obj env.clock m s.world with ⟨w, r⟩
  rcases e2 : evalFunc obj env.clock m t.world with ⟨v, r'⟩
  rw [e1, e2] at h1 h2
  simp only at h1 h2
  have htick : T → w.ticks = v.ticks := by
    intro hT
    have := h3 (h.time hT).1
    rw [e1, e2] at this
    injection this with this
    rw [this]
  cases r with
  | error e =>
    cases r' with
    | ok p => simp [Except.map] at h2
    | error e' =>
      simp only [Except.map, Except.error.injEq] at h2
      subst h2
      refine ⟨rfl, ?_, rfl, rfl⟩
      exact { X := h.X, Y := h.Y, calls := h1, context := h.context, cost := h.cost, kind := h.kind,
              time := fun hT => ⟨htick hT, (h.time hT).2⟩ }
  | ok p =>
    cases r' with
    | error e' => simp [Except.map] at h2
    | ok p' =>
      obtain ⟨ys, ts⟩ := p
      obtain ⟨ys', ts'⟩ := p'
      simp only [Except.map, Except.ok.injEq] at h2
      subst h2
      simp only [update_other h.kind, update_other hk']
      rw [h.Y]
      cases t.Y with
      | none =>
        refine ⟨rfl, ?_, rfl, rfl⟩
        exact { X := h.X, Y := rfl, calls := h1, context := h.context, cost := h.cost, kind := h.kind,
                time := fun hT => ⟨htick hT, (h.time hT).2⟩ }
      | some Y =>
        refine ⟨rfl, ?_, rfl, rfl⟩
        exact { X := h.X, Y := rfl, calls := h1, context := h.context, cost := h.cost, kind := h.kind,
                time := fun hT => ⟨htick hT, (h.time hT).2⟩ }

/-- Corresponding results of two rounds. -/
inductive RoundSim (T : Prop) (s t : BOState) : Round → Round → Prop
  | next {s' t' : BOState} : Sim T s' t' → s'.numAcq = s.numAcq + 1 → t'.numAcq = t.numAcq + 1 →
      RoundSim T s t (.next s') (.next t')
  | stop {s' t' : BOState} (why : Stop) : Sim T s' t' → s'.numAcq = s.numAcq → t'.numAcq = t.numAcq →
      RoundSim T s t (.stop s' why) (.stop t' why)
  | raised {s' t' : BOState} (e : Err) : Sim T s' t' → RoundSim T s t (.raised s' e) (.raised t' e)

theorem boRound_sim (hd : DataOnly env) {mi mi' mt : Limit} {eps : ℚ} {s t : BOState} (h : Sim T s t)
    (hn : env.interval = 1 ∨ s.numAcq = t.numAcq)
    (hb : mi.exceeds (s.numAcq : ℚ) = mi'.exceeds (t.numAcq : ℚ)) (ht : mt = .inf ∨ T) :
    RoundSim T s t (boRound env obj mi mt eps s) (boRound env obj mi' mt eps t) := by
  have htime : mt.exceeds s.cumTime = mt.exceeds t.cumTime := by
    rcases ht with rfl | hT
    · rfl
    · rw [(h.time hT).2.2]
  obtain ⟨hu, hsim, hn1, hn2⟩ := updateModel_sim hd h hn
  unfold boRound
  rw [htime]
  split_ifs with htt
  · rcases e1 : updateModel env s with ⟨s1, r⟩
    rcases e2 : updateModel env t with ⟨t1, r'⟩
    rw [e1, e2] at hu hsim
    rw [e1] at hn1
    rw [e2] at hn2
    simp only at hu hn1 hn2 hsim
    subst hu
    cases r with
    | error e =>
      cases e <;> first
        | exact .stop _ hsim hn1 hn2
        | exact .raised _ hsim
    | ok u =>
      simp only
      have hcond : (¬ mi.exceeds (s1.numAcq : ℚ) = true ∨ lastTwoClose eps s1.X = true) ↔
          (¬ mi'.exceeds (t1.numAcq : ℚ) = true ∨ lastTwoClose eps t1.X = true) := by
        rw [hn1, hn2, hb, hsim.X]
      by_cases hstop : ¬ mi'.exceeds (t1.numAcq : ℚ) = true ∨ lastTwoClose eps t1.X = true
      · rw [if_pos hstop, if_pos (hcond.2 hstop)]
        exact .stop _ hsim hn1 hn2
      · rw [if_neg hstop, if_neg (fun h => hstop (hcond.1 h))]
        have hsug : env.suggest s1 none none = env.suggest t1 none none := by
          obtain ⟨π, hπ⟩ := hd.suggest
          rw [hπ, hπ, hsim.X, hsim.Y, hsim.context]
        rw [hsug]
        cases env.suggest t1 none none with
        | error e => exact .raised _ hsim
        | ok m =>
          simp only
          have hsim' : Sim T { s1 with X := s1.X ++ m } { t1 with X := t1.X ++ m } :=
            { X := by simp only; rw [hsim.X], Y := hsim.Y, calls := hsim.calls, context := hsim.context,
              cost := hsim.cost, kind := hsim.kind, time := hsim.time }
          obtain ⟨g1, g2, g3, g4⟩ := evaluateObjective_sim (env := env) (obj := obj) hsim' m
          rcases e3 : evaluateObjective env obj { s1 with X := s1.X ++ m } m with ⟨s2, r⟩
          rcases e4 : evaluateObjective env obj { t1 with X := t1.X ++ m } m with ⟨t2, r'⟩
          rw [e3, e4] at g1 g2
          rw [e3] at g3
          rw [e4] at g4
          simp only at g1 g2 g3 g4
          subst g1
          cases r with
          | error e => exact .raised _ g2
          | ok u =>
            refine .next ?_ ?_ ?_
            · exact { X := g2.X, Y := g2.Y, calls := g2.calls, context := g2.context,
                      cost := g2.cost, kind := g2.kind, time := fun hT => by
                        obtain ⟨a1, a2, a3⟩ := g2.time hT
                        simp only
                        rw [a1, a2]
                        exact ⟨rfl, rfl, rfl⟩ }
            · simp only; rw [g3, hn1]
            · simp only; rw [g4, hn2]
  · exact .stop _ h rfl rfl

/-- Loops from states with the same data and the same remaining budget agree. -/
theorem boLoop_sim (hd : DataOnly env) {mi mi' mt : Limit} {eps : ℚ} (fuel : Nat) {s t : BOState}
    (h : Sim T s t) (hn : env.interval = 1 ∨ s.numAcq = t.numAcq)
    (hb : ∀ j : Nat, mi.exceeds ((s.numAcq + j : Nat) : ℚ) = mi'.exceeds ((t.numAcq + j : Nat) : ℚ))
    (ht : mt = .inf ∨ T) :
    Sim T (boLoop env obj mi mt eps fuel s).1 (boLoop env obj mi' mt eps fuel t).1 ∧
    (boLoop env obj mi mt eps fuel s).2 = (boLoop env obj mi' mt eps fuel t).2 := by
  induction fuel generalizing s t with
  | zero => exact ⟨h, rfl⟩
  | succ fuel ih =>
    have hr := boRound_sim (obj := obj) (eps := eps) (mi := mi) (mi' := mi') hd h hn
      (by simpa using hb 0) ht
    unfold boLoop
    generalize boRound env obj mi mt eps s = a at hr
    generalize boRound env obj mi' mt eps t = b at hr
    cases hr with
    | raised e h1 => exact ⟨h1, rfl⟩
    | stop why h1 _ _ => exact ⟨h1, rfl⟩
    | next h1 h2 h3 =>
      apply ih h1
      · rcases hn with hn | hn
        · exact Or.inl hn
        · exact Or.inr (by rw [h2, h3, hn])
      · intro j
        have := hb (j + 1)
        rw [h2, h3]
        rw [show _ + 1 + j = s.numAcq + (j + 1) by omega, show _ + 1 + j = t.numAcq + (j + 1) by omega]
        exact this

theorem boLoop_fuel {mi mt : Limit} {eps : ℚ} {fuel : Nat} {s : BOState}
    (h : (boLoop env obj mi mt eps fuel s).2 ≠ .running) {fuel' : Nat} (hf : fuel ≤ fuel') :
    boLoop env obj mi mt eps fuel' s = boLoop env obj mi mt eps fuel s := by
  induction fuel generalizing s fuel' with
  | zero => simp [boLoop] at h
  | succ fuel ih =>
    obtain ⟨fuel', rfl⟩ : ∃ k, fuel' = k + 1 := ⟨fuel' - 1, by omega⟩
    unfold boLoop at h ⊢
    cases hr : boRound env obj mi mt eps s with
    | stop s' why => rfl
    | raised s' e => rfl
    | next s' =>
      simp only [hr] at h ⊢
      exact ih h (by omega)

/-- The loop with budget `n + m` does what the loop with budget `n` does, followed by a new loop with
budget `m`. -/
theorem boLoop_split (hd : DataOnly env) (hI : env.interval = 1) {eps : ℚ} {n m : Nat} {fuel fuel2 : Nat}
    {s s1 t u : BOState} {why : Stop} (hst : Sim T s t) (hn : s.numAcq = t.numAcq) (hsn : s.numAcq ≤ n)
    (h : boLoop env obj (.fin n) .inf eps fuel s = (s1, .done why)) (hu : Sim T s1 u)
    (hun : u.numAcq = 0) (hf2 : 1 ≤ fuel2)
    (h2 : (boLoop env obj (.fin m) .inf eps fuel2 u).2 ≠ .running) :
    Sim T (boLoop env obj (.fin (n + m : Nat)) .inf eps (fuel + fuel2) t).1
      (boLoop env obj (.fin m) .inf eps fuel2 u).1 ∧
    (boLoop env obj (.fin (n + m : Nat)) .inf eps (fuel + fuel2) t).2
      = (boLoop env obj (.fin m) .inf eps fuel2 u).2 := by
  induction fuel generalizing s t with
  | zero => simp [boLoop] at h
  | succ fuel ih =>
    unfold boLoop at h
    cases hr : boRound env obj (.fin n) .inf eps s with
    | raised s' e => simp [hr] at h
    | next s' =>
      simp only [hr] at h
      have hlt : s.numAcq < n := by
        obtain ⟨mm, ys, hs⟩ := boRound_next hr
        simpa [Limit.exceeds] using hs.budget
      have hrs := boRound_sim (obj := obj) (eps := eps) (mi := .fin n) (mi' := .fin (n + m : Nat))
        (mt := .inf) hd hst (Or.inl hI) (by
          simp only [Limit.exceeds, Nat.cast_lt, decide_eq_decide]
          omega) (Or.inl rfl)
      rw [hr] at hrs
      rw [show fuel + 1 + fuel2 = (fuel + fuel2) + 1 by omega]
      conv => rw [boLoop]
      generalize hb : boRound env obj (.fin (n + m : Nat)) .inf eps t = b at hrs
      cases hrs with
      | next h1 h3 h4 =>
        simp only
        exact ih h1 (by rw [h3, h4, hn]) (by omega) h
    | stop s' why' =>
      simp only [hr, Prod.mk.injEq, RunResult.done.injEq] at h
      obtain ⟨rfl, rfl⟩ := h
      have hsp := boRound_stop hr
      have hsu : Sim T s u := by
        obtain ⟨ps, fs, rfl⟩ := hsp.frame
        exact { X := hu.X, Y := hu.Y, calls := hu.calls, context := hu.context, cost := hu.cost,
                kind := hu.kind, time := hu.time }
      have htu : Sim T t u :=
        { X := hst.X.symm.trans hsu.X, Y := hst.Y.symm.trans hsu.Y,
          calls := hst.calls.symm.trans hsu.calls, context := hst.context.symm.trans hsu.context,
          cost := hst.cost.symm.trans hsu.cost, kind := hst.cost ▸ hst.kind, time := fun hT => by
            obtain ⟨a1, a2, a3⟩ := hst.time hT
            obtain ⟨b1, b2, b3⟩ := hsu.time hT
            exact ⟨a1.symm.trans b1, a2.symm.trans b2, a3.symm.trans b3⟩ }
      by_cases hbud : s.numAcq = n
      · -- stopped with the budget used: the long loop goes on like the new one
        have hfu : boLoop env obj (.fin m) .inf eps (fuel + 1 + fuel2) u =
            boLoop env obj (.fin m) .inf eps fuel2 u := boLoop_fuel h2 (by omega)
        rw [← hfu]
        apply boLoop_sim hd _ htu (Or.inl hI) _ (Or.inl rfl)
        intro j
        simp only [Limit.exceeds, Nat.cast_lt, decide_eq_decide]
        omega
      · -- stopped by the model or by two equal locations: so do the others
        have hstop : ∀ (v : BOState) (N : Nat), Sim T v s → ∃ v', boRound env obj (.fin N) .inf eps v
            = .stop v' why' ∧ Sim T v' s' := by
          intro v N hv
          have hsim := updateModel_sim (T := T) hd hv (Or.inl hI)
          rcases hwt : why' with _ | _ | _
          · have := hsp.time.1 hwt
            simp [Limit.exceeds] at this
          · have hfit := (hsp.fit.1 hwt).2
            have hs' := hsp.update (by rw [hwt]; simp)
            refine ⟨(updateModel env v).1, ?_, hs' ▸ hsim.2.1⟩
            unfold boRound
            rw [if_pos (by rfl)]
            rcases e1 : updateModel env v with ⟨v1, r1⟩
            rw [e1, hfit] at hsim
            obtain ⟨rfl, -⟩ := hsim
            rfl
          · obtain ⟨-, hfit, hcl⟩ := hsp.limit.1 hwt
            have hs' := hsp.update (by rw [hwt]; simp)
            have hcl' : lastTwoClose eps s.X = true := by
              rcases hcl with hcl | hcl
              · simp only [Limit.exceeds, Nat.cast_lt, decide_eq_false_iff_not, not_lt] at hcl
                omega
              · exact hcl
            refine ⟨(updateModel env v).1, ?_, hs' ▸ hsim.2.1⟩
            unfold boRound
            rw [if_pos (by rfl)]
            rcases e1 : updateModel env v with ⟨v1, r1⟩
            obtain ⟨ps, fs, hfr⟩ := updateModel_frame e1
            rw [e1, hfit] at hsim
            simp only at hsim
            obtain ⟨rfl, -⟩ := hsim
            have hvX : v1.X = s.X := by rw [hfr]; exact hv.X
            simp only
            rw [if_pos (Or.inr (by rw [hvX]; exact hcl'))]
        have hsymm : ∀ {a b : BOState}, Sim T a b → Sim T b a := fun {a b} h =>
          { X := h.X.symm, Y := h.Y.symm, calls := h.calls.symm, context := h.context.symm,
            cost := h.cost.symm, kind := h.cost ▸ h.kind, time := fun hT => by
              obtain ⟨a1, a2, a3⟩ := h.time hT
              exact ⟨a1.symm, a2.symm, a3.symm⟩ }
        obtain ⟨t', ht1, ht2⟩ := hstop t (n + m) (hsymm hst)
        obtain ⟨u', hu1, hu2⟩ := hstop u m (hsymm hsu)
        obtain ⟨f2, rfl⟩ : ∃ k, fuel2 = k + 1 := ⟨fuel2 - 1, by omega⟩
        rw [show fuel + 1 + (f2 + 1) = (fuel + 1 + f2) + 1 by omega]
        conv => rw [boLoop]
        rw [ht1]
        conv => rw [boLoop]
        rw [hu1]
        refine ⟨?_, rfl⟩
        have hu2' := hsymm hu2
        exact { X := ht2.X.trans hu2'.X, Y := ht2.Y.trans hu2'.Y, calls := ht2.calls.trans hu2'.calls,
                context := ht2.context.trans hu2'.context, cost := ht2.cost.trans hu2'.cost,
                kind := ht2.kind, time := fun hT => by
                  obtain ⟨a1, a2, a3⟩ := ht2.time hT
                  obtain ⟨b1, b2, b3⟩ := hu2'.time hT
                  exact ⟨a1.trans b1, a2.trans b2, a3.trans b3⟩ }

end GPyOpt
