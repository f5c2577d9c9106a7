import Verif.Props.Constructor
import Verif.Props.Search

/-!
# Property C141: the clock and the budgets decide when an optimization stops, not where it evaluates
-/

namespace GPyOpt.Props

open GPyOpt Spec

/-- The state with other readings of the clock. -/
def setTime (a b : ℚ) (s : BOState) : BOState := { s with timeZero := a, cumTime := b }

/-- The components of the optimizer do not use the elapsed time (`timeZero`, `cumTime`); the model of the evaluation time is
treated separately. -/
structure ClockBlind (env : BOEnv) : Prop where
  fit : ∀ a b s, env.fit (setTime a b s) = env.fit s
  params : ∀ a b s, env.params (setTime a b s) = env.params s
  suggest : ∀ a b s, env.suggest (setTime a b s) = env.suggest s

variable {env : BOEnv} {obj : Nat → Vec → Py ℚ}

theorem evalFunc_clock (clock clock' : Nat → ℚ) (m : Mat) (w : World) :
    (evalFunc obj clock m w).1 = (evalFunc obj clock' m w).1 ∧
      (evalFunc obj clock m w).2.map Prod.fst = (evalFunc obj clock' m w).2.map Prod.fst := by
  induction m generalizing w with
  | nil => exact ⟨rfl, rfl⟩
  | cons x m ih =>
    unfold evalFunc
    cases obj w.calls.length x with
    | error e => exact ⟨rfl, rfl⟩
    | ok y =>
      simp only
      obtain ⟨h1, h2⟩ := ih { calls := w.calls ++ [(x, .ok y)], ticks := w.ticks + 2 }
      rcases e1 : evalFunc obj clock m { calls := w.calls ++ [(x, .ok y)], ticks := w.ticks + 2 } with ⟨w1, r1⟩
      rcases e2 : evalFunc obj clock' m { calls := w.calls ++ [(x, .ok y)], ticks := w.ticks + 2 } with ⟨w2, r2⟩
      rw [e1, e2] at h1 h2
      simp only at h1 h2
      subst h1
      cases r1 <;> cases r2 <;> simp_all [Except.map]

theorem updateModel_clock (hb : ClockBlind env) (clock' : Nat → ℚ) (a b : ℚ) (s : BOState) :
    updateModel { env with clock := clock' } (setTime a b s)
      = (setTime a b (updateModel env s).1, (updateModel env s).2) := by
  have hsave : ∀ t, saveParams { env with clock := clock' } (setTime a b t)
      = (setTime a b (saveParams env t).1, (saveParams env t).2) := by
    intro t
    unfold saveParams
    simp only [hb.params]
    cases env.params t with
    | error e => rfl
    | ok p => cases hp : t.params <;> simp [setTime, hp]
  unfold updateModel
  simp only [show (setTime a b s).numAcq = s.numAcq from rfl, show (setTime a b s).X = s.X from rfl,
    show (setTime a b s).Y = s.Y from rfl, hb.fit]
  split_ifs with h0 h1
  · rfl
  · cases env.sp.unzipInputs s.X with
    | error e => rfl
    | ok Xm =>
      cases hY : s.Y with
      | none => rfl
      | some Y =>
        simp only
        rw [show ({ env with clock := clock' } : BOEnv).modelY Y = env.modelY Y from rfl]
        cases env.fit s Xm (env.modelY Y) with
        | error e => simp [setTime, hY]
        | ok u =>
          simp only
          rw [← hsave]
          simp [setTime, hY]
  · exact hsave s

theorem evaluateObjective_clock (clock' : Nat → ℚ) (a b : ℚ) (s : BOState) (hk : s.cost.kind ≠ .evaluationTime) (m : Mat) :
    evaluateObjective { env with clock := clock' } obj (setTime a b s) m
      = (setTime a b (evaluateObjective env obj s m).1, (evaluateObjective env obj s m).2) := by
  obtain ⟨h1, h2⟩ := evalFunc_clock (obj := obj) env.clock clock' m s.world
  unfold evaluateObjective
  simp only [show (setTime a b s).world = s.world from rfl, show (setTime a b s).cost = s.cost from rfl,
    show (setTime a b s).Y = s.Y from rfl, update_other hk]
  rcases e1 : evalFunc obj env.clock m s.world with ⟨w1, r1⟩
  rcases e2 : evalFunc obj clock' m s.world with ⟨w2, r2⟩
  rw [e1, e2] at h1 h2
  simp only at h1 h2
  subst h1
  cases r1 with
  | error e =>
    cases r2 with
    | error e' => simp only [Except.map, Except.error.injEq] at h2; subst h2; rfl
    | ok p => simp [Except.map] at h2
  | ok p =>
    cases r2 with
    | error e' => simp [Except.map] at h2
    | ok p' =>
      obtain ⟨ys, ts⟩ := p
      obtain ⟨ys', ts'⟩ := p'
      simp only [Except.map, Except.ok.injEq] at h2
      subst h2
      cases hY : s.Y <;> simp [setTime, hY]

/-- What two rounds with other clocks and budgets have in common: both have the same result up to the readings of the clock,
unless (only if `D`) one of them stops; a round that stops has called nothing. -/
inductive SameRound (D : Prop) (s : BOState) : Round → Round → Prop
  | next {s' : BOState} (a b a' b' : ℚ) : s'.cost.kind ≠ .evaluationTime →
      SameRound D s (.next (setTime a b s')) (.next (setTime a' b' s'))
  | raised {s' : BOState} (a b a' b' : ℚ) (e : Err) : s'.cost.kind ≠ .evaluationTime →
      SameRound D s (.raised (setTime a b s') e) (.raised (setTime a' b' s') e)
  | stop {s' : BOState} (a b a' b' : ℚ) (why : Stop) : s'.cost.kind ≠ .evaluationTime → s'.world = s.world →
      SameRound D s (.stop (setTime a b s') why) (.stop (setTime a' b' s') why)
  | stopLeft {s' : BOState} {why : Stop} {r : Round} : D → s'.world = s.world → SameRound D s (.stop s' why) r
  | stopRight {s' : BOState} {why : Stop} {r : Round} : D → s'.world = s.world → SameRound D s r (.stop s' why)

theorem evaluateObjective_kind {s s' : BOState} {m : Mat} {q : Py Unit} (hk : s.cost.kind ≠ .evaluationTime)
    (h : evaluateObjective env obj s m = (s', q)) : s'.cost = s.cost := by
  unfold evaluateObjective at h
  simp only [update_other hk] at h
  rcases e1 : evalFunc obj env.clock m s.world with ⟨w1, r1⟩
  rw [e1] at h
  cases r1 with
  | error e => simp only [Prod.mk.injEq] at h; rw [← h.1]
  | ok p =>
    cases hY : s.Y with
    | none => simp only [hY, Prod.mk.injEq] at h; rw [← h.1]
    | some Y => simp only [hY, Prod.mk.injEq] at h; rw [← h.1]

theorem boRound_clock (hb : ClockBlind env) (clock' : Nat → ℚ) (mi mt mi' mt' : Limit) (eps : ℚ) (a b a' b' : ℚ) (s : BOState)
    (hk : s.cost.kind ≠ .evaluationTime) :
    SameRound (¬ (mi = mi' ∧ mt = .inf ∧ mt' = .inf)) s (boRound env obj mi mt eps (setTime a b s))
      (boRound { env with clock := clock' } obj mi' mt' eps (setTime a' b' s)) := by
  have hup : ∀ a b, updateModel env (setTime a b s) = (setTime a b (updateModel env s).1, (updateModel env s).2) :=
    fun a b => updateModel_clock hb env.clock a b s
  have hev : ∀ a b (t : BOState), t.cost.kind ≠ .evaluationTime → ∀ m, evaluateObjective env obj (setTime a b t) m
      = (setTime a b (evaluateObjective env obj t m).1, (evaluateObjective env obj t m).2) :=
    fun a b t ht m => evaluateObjective_clock env.clock a b t ht m
  unfold boRound
  rw [hup, updateModel_clock hb clock' a' b' s]
  rcases hu : updateModel env s with ⟨s1, q⟩
  obtain ⟨ps, fs, hfr⟩ := updateModel_frame hu
  have hw1 : s1.world = s.world := by rw [hfr]
  have hk1 : s1.cost.kind ≠ .evaluationTime := by rw [hfr]; exact hk
  by_cases ht : mt.exceeds (setTime a b s).cumTime = true
  swap
  · rw [if_neg ht]
    refine .stopLeft ?_ rfl
    rintro ⟨-, rfl, -⟩
    exact ht rfl
  rw [if_pos ht]
  by_cases ht' : mt'.exceeds (setTime a' b' s).cumTime = true
  swap
  · rw [if_neg ht']
    refine .stopRight ?_ rfl
    rintro ⟨-, -, rfl⟩
    exact ht' rfl
  rw [if_pos ht']
  cases q with
  | error e =>
    cases e <;> first | exact .stop _ _ _ _ _ hk1 hw1 | exact .raised _ _ _ _ _ hk1
  | ok u =>
    simp only
    by_cases hl : ¬ mi.exceeds ((setTime a b s1).numAcq : ℚ) = true ∨ lastTwoClose eps (setTime a b s1).X = true
    · rw [if_pos hl]
      by_cases hl' : ¬ mi'.exceeds ((setTime a' b' s1).numAcq : ℚ) = true ∨ lastTwoClose eps (setTime a' b' s1).X = true
      · rw [if_pos hl']; exact .stop _ _ _ _ _ hk1 hw1
      · refine .stopLeft ?_ hw1
        rintro ⟨rfl, -, -⟩
        exact hl' hl
    rw [if_neg hl]
    by_cases hl' : ¬ mi'.exceeds ((setTime a' b' s1).numAcq : ℚ) = true ∨ lastTwoClose eps (setTime a' b' s1).X = true
    · rw [if_pos hl']
      refine .stopRight ?_ hw1
      rintro ⟨rfl, -, -⟩
      exact hl hl'
    rw [if_neg hl']
    simp only [hb.suggest]
    cases hm : env.suggest s1 none none with
    | error e => exact .raised _ _ _ _ _ hk1
    | ok m =>
      simp only
      rw [show ({ setTime a b s1 with X := (setTime a b s1).X ++ m } : BOState) = setTime a b { s1 with X := s1.X ++ m } from rfl,
        show ({ setTime a' b' s1 with X := (setTime a' b' s1).X ++ m } : BOState)
          = setTime a' b' { s1 with X := s1.X ++ m } from rfl, hev _ _ { s1 with X := s1.X ++ m } hk1,
        evaluateObjective_clock clock' _ _ { s1 with X := s1.X ++ m } hk1]
      rcases he : evaluateObjective env obj { s1 with X := s1.X ++ m } m with ⟨s2, q2⟩
      have hk2 : s2.cost.kind ≠ .evaluationTime := by 
        rw [evaluateObjective_kind (s := { s1 with X := s1.X ++ m }) hk1 he]; exact hk1
      cases q2 with
      | error e => exact .raised _ _ _ _ _ hk2
      | ok u =>
        exact .next (s' := { s2 with
              cumTime := 0
              world := { s2.world with ticks := s2.world.ticks + 1 }
              numAcq := s2.numAcq + 1 }) a _ a' _ hk2

/-- The calls of the objective during a loop extend the earlier ones. -/
theorem boLoop_calls_prefix (env : BOEnv) (obj : Nat → Vec → Py ℚ) (mi mt : Limit) (eps : ℚ) (fuel : Nat) (s : BOState) :
    s.world.calls <+: (boLoop env obj mi mt eps fuel s).1.world.calls := by
  induction fuel generalizing s with
  | zero => exact List.prefix_rfl
  | succ fuel ih =>
    have hround : ∀ s', boRound env obj mi mt eps s = .next s' ∨ (∃ why, boRound env obj mi mt eps s = .stop s' why) ∨
        (∃ e, boRound env obj mi mt eps s = .raised s' e) → s.world.calls <+: s'.world.calls := by
      intro s' hs'
      have key : ∀ r : Round, boRound env obj mi mt eps s = r → match r with
          | .next s' => s.world.calls <+: s'.world.calls
          | .stop s' _ => s.world.calls <+: s'.world.calls
          | .raised s' _ => s.world.calls <+: s'.world.calls := by
        intro r hr
        subst hr
        unfold boRound
        split_ifs with ht
        · rcases hu : updateModel env s with ⟨s1, q⟩
          obtain ⟨ps, fs, hfr⟩ := updateModel_frame hu
          have hw : s1.world = s.world := by rw [hfr]
          cases q with
          | error e => cases e <;> (simp only [hw]; exact List.prefix_rfl)
          | ok u =>
            simp only
            split_ifs with hl
            · simp only [hw]; exact List.prefix_rfl
            · cases hm : env.suggest s1 none none with
              | error e => simp only [hw]; exact List.prefix_rfl
              | ok m =>
                simp only
                have hpre : s.world.calls <+: (evaluateObjective env obj { s1 with X := s1.X ++ m } m).1.world.calls := by
                  unfold evaluateObjective
                  simp only [hw]
                  rcases he : evalFunc obj env.clock m s.world with ⟨w, q⟩
                  have hpw : s.world.calls <+: w.calls := by
                    cases q with
                    | ok p => rw [(evalFunc_ok (ys := p.1) (ts := p.2) he).2.2]; exact List.prefix_append _ _
                    | error e =>
                      obtain ⟨i, x, ys, -, -, h3⟩ := evalFunc_error he
                      rw [h3, List.append_assoc]
                      exact List.prefix_append _ _
                  cases q with
                  | error e => exact hpw
                  | ok p =>
                    simp only
                    split
                    · exact hpw
                    · cases s1.Y <;> exact hpw
                rcases he : evaluateObjective env obj { s1 with X := s1.X ++ m } m with ⟨s2, q2⟩
                rw [he] at hpre
                cases q2 <;> exact hpre
        · exact List.prefix_rfl
      rcases hs' with h | ⟨w, h⟩ | ⟨e, h⟩ <;> exact key _ h
    unfold boLoop
    cases hr : boRound env obj mi mt eps s with
    | next s' => exact (hround s' (.inl hr)).trans (ih s')
    | stop s' why => exact hround s' (.inr (.inl ⟨why, hr⟩))
    | raised s' e => exact hround s' (.inr (.inr ⟨e, hr⟩))

theorem boLoop_clock (hb : ClockBlind env) (clock' : Nat → ℚ) (mi mt mi' mt' : Limit) (eps : ℚ) (fuel : Nat) :
    ∀ (fuel' : Nat) (a b a' b' : ℚ) (s : BOState), s.cost.kind ≠ .evaluationTime →
    (boLoop env obj mi mt eps fuel (setTime a b s)).1.world.calls <+:
        (boLoop { env with clock := clock' } obj mi' mt' eps fuel' (setTime a' b' s)).1.world.calls ∨
      (boLoop { env with clock := clock' } obj mi' mt' eps fuel' (setTime a' b' s)).1.world.calls <+:
        (boLoop env obj mi mt eps fuel (setTime a b s)).1.world.calls := by
  induction fuel with
  | zero =>
    intro fuel' a b a' b' s hk
    exact .inl (boLoop_calls_prefix { env with clock := clock' } obj mi' mt' eps fuel' (setTime a' b' s))
  | succ fuel ih =>
    intro fuel' a b a' b' s hk
    cases fuel' with
    | zero => exact .inr (boLoop_calls_prefix env obj mi mt eps (fuel + 1) (setTime a b s))
    | succ fuel' =>
      have hpre := boLoop_calls_prefix env obj mi mt eps (fuel + 1) (setTime a b s)
      have hpre' := boLoop_calls_prefix { env with clock := clock' } obj mi' mt' eps (fuel' + 1) (setTime a' b' s)
      have hr := boRound_clock (obj := obj) hb clock' mi mt mi' mt' eps a b a' b' s hk
      conv at hpre => rhs; unfold boLoop
      conv at hpre' => rhs; unfold boLoop
      unfold boLoop
      generalize boRound env obj mi mt eps (setTime a b s) = r at *
      generalize boRound { env with clock := clock' } obj mi' mt' eps (setTime a' b' s) = r' at *
      cases hr with
      | next _ _ _ _ hk' => exact ih _ _ _ _ _ _ hk'
      | raised => exact .inl List.prefix_rfl
      | stop => exact .inl List.prefix_rfl
      | stopLeft _ hw => left; simp only [hw]; exact hpre'
      | stopRight _ hw => right; simp only [hw]; exact hpre

/-- Loops with the same budget of iterations and no limit of time have the same result, up to the readings of the clock. -/
theorem boLoop_clock_eq (hb : ClockBlind env) (clock' : Nat → ℚ) (mi : Limit) (eps : ℚ) (fuel : Nat) :
    ∀ (a b a' b' : ℚ) (s : BOState), s.cost.kind ≠ .evaluationTime →
    ∃ (s' : BOState) (r : RunResult) (c d c' d' : ℚ), s'.cost.kind ≠ .evaluationTime ∧
      boLoop env obj mi .inf eps fuel (setTime a b s) = (setTime c d s', r) ∧
      boLoop { env with clock := clock' } obj mi .inf eps fuel (setTime a' b' s) = (setTime c' d' s', r) := by
  induction fuel with
  | zero => exact fun a b a' b' s hk => ⟨s, .running, a, b, a', b', hk, rfl, rfl⟩
  | succ fuel ih =>
    intro a b a' b' s hk
    have hr := boRound_clock (obj := obj) hb clock' mi .inf mi .inf eps a b a' b' s hk
    unfold boLoop
    generalize boRound env obj mi .inf eps (setTime a b s) = r at *
    generalize boRound { env with clock := clock' } obj mi .inf eps (setTime a' b' s) = r' at *
    cases hr with
    | next _ _ _ _ hk' => exact ih _ _ _ _ _ hk'
    | raised _ _ _ _ e hk' => exact ⟨_, _, _, _, _, _, hk', rfl, rfl⟩
    | stop _ _ _ _ why hk' => exact ⟨_, _, _, _, _, _, hk', rfl, rfl⟩
    | stopLeft hd => exact absurd ⟨rfl, rfl, rfl⟩ hd
    | stopRight hd => exact absurd ⟨rfl, rfl, rfl⟩ hd

/-- start of a run -/
theorem runStart_clock (clock' : Nat → ℚ) (ra ra' : RunArgs) (hctx : ra.context = ra'.context) (a b : ℚ) (s : BOState)
    (hk : s.cost.kind ≠ .evaluationTime) :
    ∃ (s' : BOState) (q : Py Unit) (c d c' d' : ℚ), s'.cost.kind ≠ .evaluationTime ∧
      runStart env obj ra s = (setTime c d s', q) ∧
      runStart { env with clock := clock' } obj ra' (setTime a b s) = (setTime c' d' s', q) := by
  obtain ⟨h1, h2⟩ := evalFunc_clock (obj := obj) env.clock clock' s.X s.world
  unfold runStart
  rw [show (setTime a b s).Y = s.Y from rfl, hctx]
  cases hY : s.Y with
  | some Y =>
    let s' : BOState := { s with
      params := none
      context := ra'.context
      world := { s.world with ticks := s.world.ticks + 1 }
      numAcq := 0 }
    refine ⟨s', .ok (), env.clock s.world.ticks, 0, clock' s.world.ticks, 0, hk, ?_, ?_⟩ <;> simp [setTime, s', hY]
  | none =>
    simp only [show (setTime a b s).X = s.X from rfl, show (setTime a b s).world = s.world from rfl,
      show (setTime a b s).cost = s.cost from rfl, if_neg hk]
    rcases e1 : evalFunc obj env.clock s.X s.world with ⟨w1, r1⟩
    rcases e2 : evalFunc obj clock' s.X s.world with ⟨w2, r2⟩
    rw [e1, e2] at h1 h2
    simp only at h1 h2
    subst h1
    cases r1 with
    | error e =>
      cases r2 with
      | error e' =>
        simp only [Except.map, Except.error.injEq] at h2
        subst h2
        let s' : BOState := { s with
          params := none
          context := ra'.context
          world := w1 }
        refine ⟨s', .error e, s.timeZero, s.cumTime, a, b, hk, ?_, ?_⟩ <;> simp [setTime, s', hY]
      | ok p => simp [Except.map] at h2
    | ok p =>
      cases r2 with
      | error e' => simp [Except.map] at h2
      | ok p' =>
        obtain ⟨ys, ts⟩ := p
        obtain ⟨ys', ts'⟩ := p'
        simp only [Except.map, Except.ok.injEq] at h2
        subst h2
        let s' : BOState := { s with
          params := none
          context := ra'.context
          world := { w1 with ticks := w1.ticks + 1 }
          numAcq := 0
          Y := some ys }
        refine ⟨s', .ok (), env.clock w1.ticks, 0, clock' w1.ticks, 0, hk, ?_, ?_⟩ <;> simp [setTime, s']

theorem runOptimization_eq {env : BOEnv} (ho : env.obj = some obj) {a : RunArgs} {s s0 : BOState} {q : Py Unit}
    (hst : runStart env obj a s = (s0, q)) (fuel : Nat) : runOptimization env a fuel s = match q with
      | .error e => (s0, .raised e)
      | .ok () => match boLoop env obj a.limits.1 a.limits.2 a.eps fuel s0 with
        | (s2, .done why) => match s2.Y with
          | none => (s2, .raised .attributeError)
          | some Y => match computeResults s2.X Y with
            | .error e => (s2, .raised e)
            | .ok r => ({ s2 with results := some r }, .done why)
        | r => r := by
  unfold runOptimization
  simp only [ho, hst]
  cases q <;> rfl

/-- **C141**, budgets. Two runs from the same state, with any clocks, limits of time and iterations and numbers of rounds, and
whatever their outcomes (finished, raised, running): the calls of the objective (arguments and outcomes) of one of them are
the first calls of the other. Clock and budgets decide when to stop, not where to evaluate. -/
theorem C141_budgets_only_cut (hb : ClockBlind env) (clock' : Nat → ℚ) (a a' : RunArgs) (hctx : a.context = a'.context)
    (heps : a.eps = a'.eps) (fuel fuel' : Nat) (s : BOState) (hk : s.cost.kind ≠ .evaluationTime) :
    (runOptimization env a fuel s).1.world.calls <+:
        (runOptimization { env with clock := clock' } a' fuel' s).1.world.calls ∨
      (runOptimization { env with clock := clock' } a' fuel' s).1.world.calls <+:
        (runOptimization env a fuel s).1.world.calls := by
  have hend : ∀ (env : BOEnv) (a : RunArgs) (fuel : Nat) (s0 : BOState) (obj : Nat → Vec → Py ℚ), env.obj = some obj →
      runStart env obj a s = (s0, .ok ()) → (runOptimization env a fuel s).1.world.calls
        = (boLoop env obj a.limits.1 a.limits.2 a.eps fuel s0).1.world.calls := by
    intro env a fuel s0 obj ho hst
    rw [runOptimization_eq ho hst]
    simp only
    rcases boLoop env obj a.limits.1 a.limits.2 a.eps fuel s0 with ⟨s2, r⟩
    cases r with
    | done why =>
      simp only
      cases s2.Y with
      | none => rfl
      | some Y => cases hc : computeResults s2.X Y <;> simp [hc]
    | raised e => rfl
    | running => rfl
  have hobj : env.obj = none ∨ ∃ obj, env.obj = some obj := by cases env.obj <;> simp
  rcases hobj with ho | ⟨obj, ho⟩
  · left; unfold runOptimization; simp only [ho]; exact List.prefix_rfl
  · obtain ⟨s', q, c, d, c', d', hk', h1, h2⟩ := runStart_clock (obj := obj) (env := env) clock' a a' hctx s.timeZero s.cumTime
      s hk
    rw [show setTime s.timeZero s.cumTime s = s from rfl] at h2
    cases q with
    | error e =>
      left
      rw [runOptimization_eq ho h1, runOptimization_eq (env := { env with clock := clock' }) ho h2]
      exact List.prefix_rfl
    | ok u =>
      rw [hend env a fuel _ obj ho h1, hend { env with clock := clock' } a' fuel' _ obj ho h2, heps]
      exact boLoop_clock hb clock' _ _ _ _ _ _ _ _ _ _ _ _ hk'

/-- What the user sees of a call. -/
inductive Seen
  | suggested (r : Py Mat)
  | ran (r : RunResult)
  deriving DecidableEq

/-- The outcomes of the calls of a history. -/
def outcomes (env : BOEnv) : List Op → BOState → List Seen
  | [], _ => []
  | .suggest c p i :: ops, s => .suggested (suggestNext env c p i s).2 :: outcomes env ops (suggestNext env c p i s).1
  | .run a fuel :: ops, s => .ran (runOptimization env a fuel s).2 :: outcomes env ops (runOptimization env a fuel s).1

/-- The call has no limit of time. -/
def Timeless : Op → Prop
  | .suggest _ _ _ => True
  | .run a _ => a.maxTime = none ∨ a.maxTime = some .inf

/-- **C141**, clock. Without limits of time and without a model of the evaluation time the clock has no effect at all: for any
history of calls, whatever their outcomes, objects with other clocks show the same outcomes and have the same state (data,
results, records, number of evaluations), except for the readings of the clock. -/
theorem C141_clock_irrelevant (hb : ClockBlind env) (clock' : Nat → ℚ) (ops : List Op) (hops : ∀ op ∈ ops, Timeless op) :
    ∀ (a b : ℚ) (s : BOState), s.cost.kind ≠ .evaluationTime →
    outcomes env ops s = outcomes { env with clock := clock' } ops (setTime a b s) ∧
    ∃ (s' : BOState) (c d c' d' : ℚ), afterAll env ops s = setTime c d s' ∧
      afterAll { env with clock := clock' } ops (setTime a b s) = setTime c' d' s' := by
  induction ops with
  | nil => exact fun a b s _ => ⟨rfl, s, s.timeZero, s.cumTime, a, b, rfl, rfl⟩
  | cons op ops ih =>
    intro a b s hk
    have ih' := ih fun o ho => hops o (by simp [ho])
    have step : ∀ (s' : BOState) (c d c' d' : ℚ), s'.cost.kind ≠ .evaluationTime →
        outcomes env ops (setTime c d s') = outcomes { env with clock := clock' } ops (setTime c' d' s') ∧
        ∃ (s'' : BOState) (e f e' f' : ℚ), afterAll env ops (setTime c d s') = setTime e f s'' ∧
          afterAll { env with clock := clock' } ops (setTime c' d' s') = setTime e' f' s'' := by
      intro s' c d c' d' hk'
      have := ih' c' d' (setTime c d s') hk'
      rwa [show setTime c' d' (setTime c d s') = setTime c' d' s' from rfl] at this
    cases op with
    | suggest ct p i =>
      have hs : ∃ (s' : BOState) (q : Py Mat) (c d c' d' : ℚ), s'.cost.kind ≠ .evaluationTime ∧
          suggestNext env ct p i s = (setTime c d s', q) ∧
          suggestNext { env with clock := clock' } ct p i (setTime a b s) = (setTime c' d' s', q) := by
        unfold suggestNext
        simp only
        have hu := updateModel_clock hb clock' a b { s with params := none, numAcq := 0, context := ct }
        rw [show setTime a b { s with params := none, numAcq := 0, context := ct }
          = { setTime a b s with params := none, numAcq := 0, context := ct } from rfl] at hu
        rw [hu]
        rcases e1 : updateModel env { s with params := none, numAcq := 0, context := ct } with ⟨s1, q⟩
        obtain ⟨ps, fs, hfr⟩ := updateModel_frame e1
        have hk1 : s1.cost.kind ≠ .evaluationTime := by rw [hfr]; exact hk
        cases q with
        | error e => exact ⟨s1, .error e, s1.timeZero, s1.cumTime, a, b, hk1, rfl, rfl⟩
        | ok u =>
          simp only [hb.suggest]
          exact ⟨s1, env.suggest s1 p i, s1.timeZero, s1.cumTime, a, b, hk1, rfl, rfl⟩
      obtain ⟨s', q, c, d, c', d', hk', h1, h2⟩ := hs
      simp only [outcomes, afterAll, Op.after, h1, h2]
      obtain ⟨g1, g2⟩ := step s' c d c' d' hk'
      exact ⟨by rw [g1], g2⟩
    | run ra fuel =>
      have htl : ra.limits.2 = .inf := by
        unfold RunArgs.limits
        rcases hops (.run ra fuel) (by simp) with ha | ha <;> rw [ha] <;> cases ra.maxIter <;> rfl
      have hs : ∃ (s' : BOState) (q : RunResult) (c d c' d' : ℚ), s'.cost.kind ≠ .evaluationTime ∧
          runOptimization env ra fuel s = (setTime c d s', q) ∧
          runOptimization { env with clock := clock' } ra fuel (setTime a b s) = (setTime c' d' s', q) := by
        have hobj : env.obj = none ∨ ∃ obj, env.obj = some obj := by cases env.obj <;> simp
        rcases hobj with ho | ⟨obj, ho⟩
        · unfold runOptimization
          simp only [ho]
          exact ⟨s, .raised .invalidConfig, s.timeZero, s.cumTime, a, b, hk, rfl, rfl⟩
        · obtain ⟨s0, q0, c, d, c', d', hk0, h1, h2⟩ := runStart_clock (obj := obj) (env := env) clock' ra ra rfl a b s hk
          rw [runOptimization_eq ho h1, runOptimization_eq (env := { env with clock := clock' }) ho h2]
          cases q0 with
          | error e => exact ⟨s0, _, c, d, c', d', hk0, rfl, rfl⟩
          | ok u =>
            obtain ⟨s2, r, e, f, e', f', hk2, h3, h4⟩ := boLoop_clock_eq (obj := obj) hb clock' ra.limits.1 ra.eps fuel c d c' d'
              s0 hk0
            simp only [htl, h3, h4]
            cases r with
            | raised x => exact ⟨s2, _, e, f, e', f', hk2, rfl, rfl⟩
            | running => exact ⟨s2, _, e, f, e', f', hk2, rfl, rfl⟩
            | done why =>
              simp only [show (setTime e f s2).Y = s2.Y from rfl, show (setTime e' f' s2).Y = s2.Y from rfl,
                show (setTime e f s2).X = s2.X from rfl, show (setTime e' f' s2).X = s2.X from rfl]
              cases hY : s2.Y with
              | none =>
                refine ⟨s2, .raised .attributeError, e, f, e', f', hk2, ?_, ?_⟩ <;> simp [setTime, hY]
              | some Y =>
                simp only
                cases computeResults s2.X Y with
                | error x => refine ⟨s2, .raised x, e, f, e', f', hk2, ?_, ?_⟩ <;> simp [setTime, hY]
                | ok r =>
                  refine ⟨{ s2 with results := some r }, .done why, e, f, e', f', hk2, ?_, ?_⟩ <;> simp [setTime, hY]
      obtain ⟨s', q, c, d, c', d', hk', h1, h2⟩ := hs
      simp only [outcomes, afterAll, Op.after, h1, h2]
      obtain ⟨g1, g2⟩ := step s' c d c' d' hk'
      exact ⟨by rw [g1], g2⟩

/-- The hypothesis is met by components that are functions of the space, the context and the data. -/
example (sp : Space) (ev : Evaluator) (deDup : Bool) :
    ClockBlind { exSearch sp with suggest := stdSuggest sp ev (fun _ => exEnv) deDup } :=
  ⟨fun _ _ _ => rfl, fun _ _ _ => rfl, fun _ _ _ => rfl⟩

/-- A limit of time with two clocks: the slower one allows one evaluation, the faster one three, which begin with the same. -/
example : ((designSpace (exGrid 8) none).map fun sp =>
      [fun (n : Nat) => (n : ℚ), fun (n : Nat) => (n : ℚ) / 4].map fun clock =>
        let env : BOEnv := { exSearch sp with clock := clock }
        (runOptimization env { maxIter := some (.fin 5), maxTime := some (.fin 2) } 10 (boInit [[0]] none .none)).1.X)
    = .ok [[[0], [1]], [[0], [1], [2], [3]]] := by
  decide +kernel

/-- acquisition that looks for large values as long as the last evaluation was fast -/
def exThrifty (s : BOState) : EvalEnv :=
  { exEnv with f := fun x => .ok (if ((s.cost.data.map fun d => d.2.getLast?.getD 0).getD 0) ≤ 1 then -x.sum else x.sum) }

/-- C141 (negation): with a model of the evaluation time (`ModularBayesianOptimization` with `cost_withGradients =
'evaluation_time'`) the clock decides where the objective is evaluated, also without limits of time: the same program on a
slower machine evaluates other locations. -/
theorem C141_evaluation_time_counterexample :
    ((designSpace (exGrid 4) none).map fun sp =>
      [fun (n : Nat) => (n : ℚ), fun (n : Nat) => 3 * (n : ℚ)].map fun clock =>
        let env : BOEnv := { exSearch sp with clock := clock, suggest := stdSuggest sp .sequential exThrifty false }
        (runOptimization env { maxIter := some (.fin 1) } 10 (boInit [[1]] none (.str "evaluation_time"))).1.X)
    = .ok [[[1], [2]], [[1], [0]]] := by
  decide +kernel

end GPyOpt.Props
