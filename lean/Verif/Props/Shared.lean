import Verif.Props.Clock

/-!
# C160: optimizers that share model and acquisition can be used in turn

`ModularBayesianOptimization` takes model, acquisition and evaluator as objects, which several optimizers can share.  The model
then holds the data of the last fit, whichever optimizer asked for it: before every call the record of the fits is that of
the shared model, and after the call the shared model has the record of the call.
-/

namespace GPyOpt.Props

open GPyOpt Spec

/-- The state of an optimizer whose model has the record `L` of fits. -/
def withFits (L : List Fit) (s : BOState) : BOState := { s with fits := L }

/-- Calls of optimizers `i` that share their components: the record of fits of the shared model is handed on. Returns the
record, the states and the outcomes. -/
def sharedCalls {ι : Type} [DecidableEq ι] (envs : ι → BOEnv) :
    List (ι × Op) → List Fit → (ι → BOState) → List Fit × (ι → BOState) × List (ι × Seen)
  | [], L, S => (L, S, [])
  | (i, op) :: ops, L, S =>
    let s := withFits L (S i)
    let s' := op.after (envs i) s
    let r := sharedCalls envs ops s'.fits (Function.update S i s')
    (r.1, r.2.1, (outcomes (envs i) [op] s).map (fun o => (i, o)) ++ r.2.2)

/-- The components do not remember earlier fits: a fit depends on its data, parameters and suggestions on the last fit. -/
structure Forgets (env : BOEnv) : Prop where
  fit : ∀ s L, env.fit (withFits L s) = env.fit s
  params : ∀ s f L L', env.params (withFits (L ++ [f]) s) = env.params (withFits (L' ++ [f]) s)
  costFit : ∀ s L, env.costFit (withFits L s) = env.costFit s
  suggest : ∀ s f L L', env.suggest (withFits (L ++ [f]) s) = env.suggest (withFits (L' ++ [f]) s)

/-- Two states that differ in the fits before the current call only. -/
inductive SameCall : Bool → BOState → BOState → Prop
  | start (L L' : List Fit) (s : BOState) : s.numAcq = 0 → SameCall false (withFits L s) (withFits L' s)
  | fitted {b : Bool} (L L' : List Fit) (f : Fit) (s : BOState) : SameCall b (withFits (L ++ [f]) s) (withFits (L' ++ [f]) s)

variable {env : BOEnv} {obj : Nat → Vec → Py ℚ}

theorem SameCall.weaken {b : Bool} {s t : BOState} (h : SameCall true s t) : SameCall b s t := by
  cases h
  exact .fitted _ _ _ _

/-- Equal up to the record of fits. -/
theorem SameCall.eq {b : Bool} {s t : BOState} (h : SameCall b s t) : t = withFits t.fits s := by
  cases h <;> rfl

theorem saveParams_shared (hb : Forgets env) {b : Bool} {s t : BOState} (h : SameCall true s t) :
    (saveParams env s).2 = (saveParams env t).2 ∧ SameCall b (saveParams env s).1 (saveParams env t).1 := by
  cases h with
  | fitted L L' f s =>
    unfold saveParams
    simp only [hb.params s f L L']
    cases env.params (withFits (L' ++ [f]) s) with
    | error e => exact ⟨rfl, .fitted L L' f s⟩
    | ok p =>
      cases hp : s.params with
      | none =>
        simp only [withFits, hp]
        exact ⟨trivial, .fitted L L' f { s with params := some [p] }⟩
      | some ps =>
        simp only [withFits, hp]
        exact ⟨trivial, .fitted L L' f { s with params := some (ps ++ [p]) }⟩

theorem updateModel_shared (hb : Forgets env) {s t : BOState} (h : SameCall false s t) :
    (updateModel env s).2 = (updateModel env t).2 ∧
      SameCall (updateModel env s).2.isOk (updateModel env s).1 (updateModel env t).1 := by
  have main : ∀ (L L' : List Fit) (s : BOState), SameCall false (withFits L s) (withFits L' s) →
      (s.numAcq = 0 ∨ SameCall true (withFits L s) (withFits L' s)) →
      (updateModel env (withFits L s)).2 = (updateModel env (withFits L' s)).2 ∧
      SameCall (updateModel env (withFits L s)).2.isOk (updateModel env (withFits L s)).1
        (updateModel env (withFits L' s)).1 := by
    intro L L' s h0 h1
    unfold updateModel
    simp only [show (withFits L s).numAcq = s.numAcq from rfl, show (withFits L' s).numAcq = s.numAcq from rfl,
      show (withFits L s).X = s.X from rfl, show (withFits L' s).X = s.X from rfl,
      show (withFits L s).Y = s.Y from rfl, show (withFits L' s).Y = s.Y from rfl, hb.fit]
    split_ifs with e0 e1
    · exact ⟨rfl, h0⟩
    · cases env.sp.unzipInputs s.X with
      | error e => exact ⟨rfl, h0⟩
      | ok Xm =>
        cases hY : s.Y with
        | none => exact ⟨rfl, h0⟩
        | some Y =>
          simp only
          have hS : ∀ b, SameCall b
              { withFits L s with fits := (withFits L s).fits ++ [{ acq := s.numAcq, X := Xm, Y := env.modelY Y }], Y := some Y }
              { withFits L' s with
                fits := (withFits L' s).fits ++ [{ acq := s.numAcq, X := Xm, Y := env.modelY Y }], Y := some Y } := by
            intro b
            have := SameCall.fitted (b := b) L L' { acq := s.numAcq, X := Xm, Y := env.modelY Y } { s with Y := some Y }
            exact this
          cases env.fit s Xm (env.modelY Y) with
          | error e => exact ⟨rfl, hS _⟩
          | ok u => exact saveParams_shared hb (hS true)
    · rcases h1 with h1 | h1
      · rw [h1] at e1
        simp at e1
      · exact saveParams_shared hb h1
  cases h with
  | start L L' s h0 => exact main L L' s (.start L L' s h0) (.inl h0)
  | fitted L L' f s => exact main _ _ s (.fitted L L' f s) (.inr (.fitted L L' f s))

theorem evaluateObjective_shared (hb : Forgets env) {s t : BOState} (h : SameCall true s t) (m : Mat) :
    (evaluateObjective env obj s m).2 = (evaluateObjective env obj t m).2 ∧
      SameCall true (evaluateObjective env obj s m).1 (evaluateObjective env obj t m).1 := by
  cases h with
  | fitted L L' f s =>
    unfold evaluateObjective
    simp only [show (withFits (L ++ [f]) s).world = s.world from rfl, show (withFits (L' ++ [f]) s).world = s.world from rfl,
      show (withFits (L ++ [f]) s).cost = s.cost from rfl, show (withFits (L' ++ [f]) s).cost = s.cost from rfl,
      show (withFits (L ++ [f]) s).Y = s.Y from rfl, show (withFits (L' ++ [f]) s).Y = s.Y from rfl, hb.costFit]
    rcases evalFunc obj env.clock m s.world with ⟨w, e | ⟨ys, ts⟩⟩
    · exact ⟨rfl, .fitted L L' f { s with world := w }⟩
    · simp only
      rcases s.cost.update env.lg (env.costFit s) m (.list ts) with ⟨c, e | u⟩
      · exact ⟨rfl, .fitted L L' f { s with world := w, cost := c }⟩
      · simp only
        cases hY : s.Y with
        | none => exact ⟨rfl, .fitted L L' f { s with world := w, cost := c, Y := none }⟩
        | some Y => exact ⟨rfl, .fitted L L' f { s with world := w, cost := c, Y := some (Y ++ ys) }⟩

/-- Rounds with the same outcome. -/
inductive SharedStep : Round → Round → Prop
  | next {s t : BOState} : SameCall false s t → SharedStep (.next s) (.next t)
  | stop {s t : BOState} {why : Stop} : SameCall false s t → SharedStep (.stop s why) (.stop t why)
  | raised {s t : BOState} {e : Err} : SameCall false s t → SharedStep (.raised s e) (.raised t e)

theorem SameCall.base {b : Bool} {s t : BOState} (h : SameCall b s t) : s.numAcq = t.numAcq ∧ s.X = t.X ∧ s.Y = t.Y ∧
    s.cumTime = t.cumTime ∧ s.context = t.context ∧ s.timeZero = t.timeZero ∧ s.world = t.world := by
  cases h <;> exact ⟨rfl, rfl, rfl, rfl, rfl, rfl, rfl⟩

theorem boRound_shared (hb : Forgets env) {mi mt : Limit} {eps : ℚ} {s t : BOState} (h : SameCall false s t) :
    SharedStep (boRound env obj mi mt eps s) (boRound env obj mi mt eps t) := by
  unfold boRound
  rw [← h.base.2.2.2.1]
  split_ifs with e0
  swap
  · exact .stop h
  obtain ⟨u1, u2⟩ := updateModel_shared hb h
  rcases hs : updateModel env s with ⟨s1, q⟩
  rcases ht : updateModel env t with ⟨t1, q'⟩
  rw [hs, ht] at u1 u2
  simp only at u1 u2
  subst u1
  cases q with
  | error e => cases e <;> first | exact .stop u2 | exact .raised u2
  | ok u =>
    have u2 : SameCall true s1 t1 := u2
    simp only
    rw [← u2.base.1, ← u2.base.2.1]
    split_ifs with e1
    · exact .stop u2.weaken
    · have hsug : env.suggest s1 none none = env.suggest t1 none none := by
        cases u2 with
        | fitted L L' f s => rw [hb.suggest s f L L']
      rw [← hsug]
      cases env.suggest s1 none none with
      | error e => exact .raised u2.weaken
      | ok m =>
        simp only
        have hX : SameCall true { s1 with X := s1.X ++ m } { t1 with X := s1.X ++ m, numAcq := s1.numAcq } := by
          cases u2 with
          | fitted L L' f s => exact .fitted L L' f { s with X := s.X ++ m }
        obtain ⟨v1, v2⟩ := evaluateObjective_shared (obj := obj) hb hX m
        rcases hs2 : evaluateObjective env obj { s1 with X := s1.X ++ m } m with ⟨s2, q⟩
        rcases ht2 : evaluateObjective env obj { t1 with X := s1.X ++ m, numAcq := s1.numAcq } m with ⟨t2, q'⟩
        rw [hs2, ht2] at v1 v2
        simp only at v1 v2
        subst v1
        cases q with
        | error e => exact .raised v2.weaken
        | ok u =>
          refine .next ?_
          cases v2 with
          | fitted L L' f s =>
            exact .fitted L L' f { s with
              cumTime := env.clock s.world.ticks - s.timeZero
              world := { s.world with ticks := s.world.ticks + 1 }
              numAcq := s.numAcq + 1 }

theorem boLoop_shared (hb : Forgets env) {mi mt : Limit} {eps : ℚ} (fuel : Nat) {s t : BOState} (h : SameCall false s t) :
    (boLoop env obj mi mt eps fuel s).2 = (boLoop env obj mi mt eps fuel t).2 ∧
      SameCall false (boLoop env obj mi mt eps fuel s).1 (boLoop env obj mi mt eps fuel t).1 := by
  induction fuel generalizing s t with
  | zero => exact ⟨rfl, h⟩
  | succ fuel ih =>
    unfold boLoop
    have := boRound_shared (obj := obj) (mi := mi) (mt := mt) (eps := eps) hb h
    generalize boRound env obj mi mt eps s = r at this
    generalize boRound env obj mi mt eps t = r' at this
    cases this with
    | next h1 => exact ih h1
    | stop h1 => exact ⟨rfl, h1⟩
    | raised h1 => exact ⟨rfl, h1⟩

/-- Equal up to the record of fits. -/
def UpToFits (s t : BOState) : Prop := t = withFits t.fits s

theorem run_shared (hb : Forgets env) (ra : RunArgs) (fuel : Nat) (L L' : List Fit) (s : BOState) :
    (runOptimization env ra fuel (withFits L s)).2 = (runOptimization env ra fuel (withFits L' s)).2 ∧
      UpToFits (runOptimization env ra fuel (withFits L s)).1 (runOptimization env ra fuel (withFits L' s)).1 := by
  unfold runOptimization
  cases env.obj with
  | none => exact ⟨rfl, rfl⟩
  | some obj =>
    simp only
    have hst : (runStart env obj ra (withFits L s)).2 = (runStart env obj ra (withFits L' s)).2 ∧
        ((runStart env obj ra (withFits L s)).2 = .ok () →
          SameCall false (runStart env obj ra (withFits L s)).1 (runStart env obj ra (withFits L' s)).1) ∧
        UpToFits (runStart env obj ra (withFits L s)).1 (runStart env obj ra (withFits L' s)).1 := by
      unfold runStart
      simp only [show (withFits L s).Y = s.Y from rfl, show (withFits L' s).Y = s.Y from rfl,
        show (withFits L s).X = s.X from rfl, show (withFits L' s).X = s.X from rfl,
        show (withFits L s).world = s.world from rfl, show (withFits L' s).world = s.world from rfl,
        show (withFits L s).cost = s.cost from rfl, show (withFits L' s).cost = s.cost from rfl]
      cases hY : s.Y with
      | some Y =>
        simp only
        exact ⟨trivial, fun _ => .start L L' { s with
          params := none, context := ra.context, timeZero := env.clock s.world.ticks, cumTime := 0, numAcq := 0, Y := some Y
          world := { s.world with ticks := s.world.ticks + 1 } } rfl, rfl⟩
      | none =>
        simp only
        rcases evalFunc obj env.clock s.X s.world with ⟨w, e | ⟨ys, ts⟩⟩
        · refine ⟨rfl, ?_, rfl⟩
          intro h
          cases h
        · simp only
          have hc : ∀ L, env.costFit { withFits L s with params := none, context := ra.context, world := w, Y := some ys }
              = env.costFit { s with params := none, context := ra.context, world := w, Y := some ys } := fun L =>
            hb.costFit { s with params := none, context := ra.context, world := w, Y := some ys } L
          split_ifs with hk
          · have h1 := hc L
            have h2 := hc L'
            rw [show ({ withFits L s with params := none, context := ra.context, world := w, Y := some ys } : BOState)
              = { X := s.X, Y := some ys, context := ra.context, numAcq := (withFits L s).numAcq, params := none,
                  cost := s.cost, timeZero := (withFits L s).timeZero, cumTime := (withFits L s).cumTime,
                  results := (withFits L s).results, world := w, fits := (withFits L s).fits } from rfl] at h1
            rw [show ({ withFits L' s with params := none, context := ra.context, world := w, Y := some ys } : BOState)
              = { X := s.X, Y := some ys, context := ra.context, numAcq := (withFits L' s).numAcq, params := none,
                  cost := s.cost, timeZero := (withFits L' s).timeZero, cumTime := (withFits L' s).cumTime,
                  results := (withFits L' s).results, world := w, fits := (withFits L' s).fits } from rfl] at h2
            rw [h1, h2]
            rcases s.cost.update env.lg (env.costFit _) s.X (.list ts) with ⟨c, e | u⟩
            · refine ⟨rfl, ?_, rfl⟩
              intro h
              cases h
            · exact ⟨rfl, fun _ => .start L L' { s with
                params := none, context := ra.context, timeZero := env.clock w.ticks, cumTime := 0, numAcq := 0
                Y := some ys, cost := c, world := { w with ticks := w.ticks + 1 } } rfl, rfl⟩
          · exact ⟨rfl, fun _ => .start L L' { s with
                params := none, context := ra.context, timeZero := env.clock w.ticks, cumTime := 0, numAcq := 0
                Y := some ys, world := { w with ticks := w.ticks + 1 } } rfl, rfl⟩
    obtain ⟨h1, h2, h3⟩ := hst
    rcases hs : runStart env obj ra (withFits L s) with ⟨s1, q⟩
    rcases ht : runStart env obj ra (withFits L' s) with ⟨t1, q'⟩
    rw [hs, ht] at h1 h2 h3
    simp only at h1 h2 h3
    subst h1
    cases q with
    | error e => exact ⟨rfl, h3⟩
    | ok u =>
      simp only
      obtain ⟨l1, l2⟩ := boLoop_shared (obj := obj) (mi := ra.limits.1) (mt := ra.limits.2) (eps := ra.eps) hb fuel (h2 rfl)
      rcases hsl : boLoop env obj ra.limits.1 ra.limits.2 ra.eps fuel s1 with ⟨s2, r⟩
      rcases htl : boLoop env obj ra.limits.1 ra.limits.2 ra.eps fuel t1 with ⟨t2, r'⟩
      rw [hsl, htl] at l1 l2
      simp only at l1 l2
      subst l1
      cases r with
      | raised e => exact ⟨rfl, l2.eq⟩
      | running => exact ⟨rfl, l2.eq⟩
      | done why =>
        simp only
        rw [← l2.base.2.2.1, ← l2.base.2.1]
        have hu : UpToFits s2 t2 := l2.eq
        cases hY : s2.Y with
        | none => exact ⟨rfl, hu⟩
        | some Y =>
          simp only
          cases computeResults s2.X Y with
          | error e => exact ⟨rfl, hu⟩
          | ok r =>
            refine ⟨rfl, ?_⟩
            unfold UpToFits at hu ⊢
            rw [hu]
            rfl

theorem suggest_shared (hb : Forgets env) (c : Option Context) (p i : Option Mat) (L L' : List Fit) (s : BOState) :
    (suggestNext env c p i (withFits L s)).2 = (suggestNext env c p i (withFits L' s)).2 ∧
      UpToFits (suggestNext env c p i (withFits L s)).1 (suggestNext env c p i (withFits L' s)).1 := by
  unfold suggestNext
  simp only
  obtain ⟨u1, u2⟩ := updateModel_shared hb
    (.start L L' { s with params := none, numAcq := 0, context := c } rfl)
  rw [show withFits L { s with params := none, numAcq := 0, context := c }
    = { withFits L s with params := none, numAcq := 0, context := c } from rfl,
    show withFits L' { s with params := none, numAcq := 0, context := c }
    = { withFits L' s with params := none, numAcq := 0, context := c } from rfl] at u1 u2
  rcases hs : updateModel env { withFits L s with params := none, numAcq := 0, context := c } with ⟨s1, q⟩
  rcases ht : updateModel env { withFits L' s with params := none, numAcq := 0, context := c } with ⟨t1, q'⟩
  rw [hs, ht] at u1 u2
  simp only at u1 u2
  subst u1
  cases q with
  | error e => exact ⟨rfl, u2.eq⟩
  | ok u =>
    have u2 : SameCall true s1 t1 := u2
    refine ⟨?_, u2.eq⟩
    cases u2 with
    | fitted L L' f s => simp only; rw [hb.suggest s f L L']

/-- The calls of optimizer `i`. -/
def callsOf {ι : Type} [DecidableEq ι] (i : ι) (ops : List (ι × Op)) : List Op :=
  ops.filterMap fun p => if p.1 = i then some p.2 else none

/-- What the user sees of optimizer `i`. -/
def seenOf {ι : Type} [DecidableEq ι] (i : ι) (l : List (ι × Seen)) : List Seen :=
  l.filterMap fun p => if p.1 = i then some p.2 else none

theorem outcomes_cons (op : Op) (ops : List Op) (s : BOState) :
    outcomes env (op :: ops) s = outcomes env [op] s ++ outcomes env ops (op.after env s) := by
  cases op <;> rfl

theorem call_shared (hb : Forgets env) (op : Op) (L L' : List Fit) (s : BOState) :
    outcomes env [op] (withFits L s) = outcomes env [op] (withFits L' s) ∧
      UpToFits (op.after env (withFits L s)) (op.after env (withFits L' s)) := by
  cases op with
  | suggest c p i =>
    obtain ⟨h1, h2⟩ := suggest_shared hb c p i L L' s
    exact ⟨by simp only [outcomes, h1], h2⟩
  | run a fuel =>
    obtain ⟨h1, h2⟩ := run_shared hb a fuel L L' s
    exact ⟨by simp only [outcomes, h1], h2⟩

theorem outcomes_shared (hb : Forgets env) (ops : List Op) (L L' : List Fit) (s : BOState) :
    outcomes env ops (withFits L s) = outcomes env ops (withFits L' s) ∧
      UpToFits (afterAll env ops (withFits L s)) (afterAll env ops (withFits L' s)) := by
  induction ops generalizing L L' s with
  | nil => exact ⟨rfl, rfl⟩
  | cons op ops ih =>
    obtain ⟨h1, h2⟩ := call_shared hb op L L' s
    rw [outcomes_cons, outcomes_cons (s := withFits L' s), h1]
    simp only [afterAll]
    rw [h2]
    have := ih (op.after env (withFits L s)).fits (op.after env (withFits L' s)).fits (op.after env (withFits L s))
    exact ⟨by rw [← this.1]; rfl, this.2⟩

/-- **C160.** Any number of optimizers (with spaces, data, objectives and arguments of their own) share model, acquisition and
evaluator, and are called in any order: every optimizer shows the outcomes, and has the data, results and records, that it has
when it is used alone, except for the record of the fits of the shared model. -/
theorem C160_in_turn {ι : Type} [DecidableEq ι] (envs : ι → BOEnv) (hb : ∀ i, Forgets (envs i)) (ops : List (ι × Op))
    (L : List Fit) (S : ι → BOState) (i : ι) :
    seenOf i (sharedCalls envs ops L S).2.2 = outcomes (envs i) (callsOf i ops) (S i) ∧
      UpToFits (afterAll (envs i) (callsOf i ops) (S i)) ((sharedCalls envs ops L S).2.1 i) := by
  induction ops generalizing L S with
  | nil => exact ⟨rfl, rfl⟩
  | cons p ops ih =>
    obtain ⟨j, op⟩ := p
    simp only [sharedCalls]
    obtain ⟨i1, i2⟩ := ih (op.after (envs j) (withFits L (S j))).fits
      (Function.update S j (op.after (envs j) (withFits L (S j))))
    by_cases hij : j = i
    · subst hij
      have hc : callsOf j ((j, op) :: ops) = op :: callsOf j ops := by simp [callsOf]
      have hs : seenOf j ((outcomes (envs j) [op] (withFits L (S j))).map fun o => (j, o))
          = outcomes (envs j) [op] (withFits L (S j)) := by
        simp [seenOf, List.filterMap_map]
      rw [hc, outcomes_cons op (callsOf j ops) (S j)]
      obtain ⟨c1, c2⟩ := call_shared (hb j) op (S j).fits L (S j)
      rw [Function.update_self] at i1 i2
      have hself : withFits (S j).fits (S j) = S j := rfl
      rw [hself] at c1 c2
      have h3 := outcomes_shared (hb j) (callsOf j ops) (op.after (envs j) (S j)).fits
        (op.after (envs j) (withFits L (S j))).fits (op.after (envs j) (S j))
      rw [show withFits (op.after (envs j) (S j)).fits (op.after (envs j) (S j)) = op.after (envs j) (S j) from rfl,
        ← (show op.after (envs j) (withFits L (S j)) = withFits (op.after (envs j) (withFits L (S j))).fits
          (op.after (envs j) (S j)) from c2)] at h3
      constructor
      · rw [seenOf, List.filterMap_append]
        rw [seenOf] at hs i1
        rw [hs, i1, c1, h3.1]
      · simp only [afterAll]
        unfold UpToFits at i2 h3 ⊢
        rw [i2, h3.2]
        rfl
    · have hc : callsOf i ((j, op) :: ops) = callsOf i ops := by simp [callsOf, hij]
      have hs : seenOf i ((outcomes (envs j) [op] (withFits L (S j))).map fun o => (j, o)) = [] := by
        simp [seenOf, List.filterMap_map, hij]
      rw [Function.update_of_ne (Ne.symm hij)] at i1 i2
      rw [hc]
      refine ⟨?_, i2⟩
      rw [seenOf, List.filterMap_append]
      rw [seenOf] at hs i1
      rw [hs, i1, List.nil_append]

/-- Negation for threads: the calls must not overlap. Between the fit and the suggestion of one optimizer the other fits the
shared model, and the suggestion is that of another model. -/
theorem C160_overlap_counterexample :
    ((designSpace exLine none).map fun sp =>
      let env := exFitted sp 1
      let s := boInit [[0], [1]] (some [1/16, 9/16]) .none
      let t := boInit [[0], [1], [1/2]] (some [1/16, 9/16, 1/16]) .none
      let s1 := (updateModel env s).1
      let t1 := (updateModel env (withFits s1.fits t)).1
      (env.suggest s1 none none, env.suggest (withFits t1.fits s1) none none))
    = .ok (.ok [[1/3]], .ok [[1/4]]) := by
  decide +kernel

/-- The hypothesis is met by a model whose suggestions depend on the last fit, and two optimizers that take turns see what
they see alone. -/
example (sp : Space) (n : Int) : Forgets (exFitted sp n) :=
  ⟨fun _ _ => rfl, fun _ _ _ _ => rfl, fun _ _ => rfl, fun s f L L' => by simp [exFitted, withFits]⟩

example : ((designSpace exLine none).map fun sp =>
      let S : Bool → BOState := fun b => if b then boInit [[0], [1]] none .none else boInit [[0], [1], [1/2]] none .none
      let run : Op := .run { maxIter := some (.fin 1) } 10
      let ask : Op := .suggest none none none
      (seenOf true (sharedCalls (fun _ => exFitted sp 2) [(true, run), (false, run), (true, ask), (false, ask)] [] S).2.2,
        outcomes (exFitted sp 2) [run, ask] (S true)))
    = .ok ([.ran (.done .limit), .suggested (.ok [[1/4]])], [.ran (.done .limit), .suggested (.ok [[1/4]])]) := by
  decide +kernel

end GPyOpt.Props
