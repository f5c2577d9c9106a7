import Verif.Model.ParallelRun
import Verif.Props.Constructor
import Verif.Props.Search

/-!
# Property C153: a run does not depend on the number of processes
-/

namespace GPyOpt.Props

open GPyOpt Spec

/-- With one process the loop is that of `Model/BO.lean`. -/
theorem evaluateObjectiveBy_seq (env : BOEnv) (obj : Nat → Vec → Py ℚ) (s : BOState) (m : Mat) :
    evaluateObjectiveBy env (seqEvaluation obj env.clock) s m = some (evaluateObjective env obj s m) := by
  unfold evaluateObjectiveBy evaluateObjective seqEvaluation
  rcases h : evalFunc obj env.clock m s.world with ⟨w, r⟩
  cases r with
  | error e => simp [Except.map]
  | ok p =>
    obtain ⟨ys, ts⟩ := p
    simp only [Except.map]
    rcases hc : s.cost.update env.lg (env.costFit s) m (.list ts) with ⟨c, r⟩
    cases r with
    | error e => rfl
    | ok u =>
      cases hY : s.Y <;> simp only []

theorem boRoundBy_seq (env : BOEnv) (obj : Nat → Vec → Py ℚ) (maxIter maxTime : Limit) (eps : ℚ) (s : BOState) :
    boRoundBy env (seqEvaluation obj env.clock) maxIter maxTime eps s = some (boRound env obj maxIter maxTime eps s) := by
  unfold boRoundBy boRound
  cases ht : maxTime.exceeds s.cumTime with
  | false => rfl
  | true =>
    simp only [if_true]
    rcases hu : updateModel env s with ⟨s1, r⟩
    cases r with
    | error e => cases e <;> rfl
    | ok u =>
      simp only
      split_ifs
      · rfl
      · cases hs : env.suggest s1 none none with
        | error e => rfl
        | ok m =>
          simp only [evaluateObjectiveBy_seq]
          rcases he : evaluateObjective env obj { s1 with X := s1.X ++ m } m with ⟨s2, r⟩
          cases r <;> rfl

theorem boLoopBy_seq (env : BOEnv) (obj : Nat → Vec → Py ℚ) (maxIter maxTime : Limit) (eps : ℚ) (fuel : Nat) (s : BOState) :
    boLoopBy env (seqEvaluation obj env.clock) maxIter maxTime eps fuel s = some (boLoop env obj maxIter maxTime eps fuel s) := by
  induction fuel generalizing s with
  | zero => rfl
  | succ fuel ih =>
    unfold boLoopBy boLoop
    rw [boRoundBy_seq]
    cases boRound env obj maxIter maxTime eps s with
    | stop s' why => rfl
    | raised s' e => rfl
    | next s' => exact ih s'

theorem runStartBy_seq (env : BOEnv) (obj : Nat → Vec → Py ℚ) (a : RunArgs) (s : BOState) :
    runStartBy env (seqEvaluation obj env.clock) a s = some (runStart env obj a s) := by
  unfold runStartBy runStart seqEvaluation
  cases hY : s.Y with
  | some Y => rfl
  | none =>
    simp only
    rcases h : evalFunc obj env.clock s.X s.world with ⟨w, r⟩
    cases r with
    | error e => simp [Except.map]
    | ok p =>
      obtain ⟨ys, ts⟩ := p
      simp only [Except.map]
      split_ifs
      · rcases hc : s.cost.update env.lg (env.costFit { s with
          params := none
          context := a.context
          world := w
          Y := some ys }) s.X (.list ts) with ⟨c, r⟩
        cases r <;> simp only
      · rfl

/-- **C153 (one process).** The loop with a general evaluation is, for one process, the loop of the other properties. -/
theorem C153_one_process (env : BOEnv) (obj : Nat → Vec → Py ℚ) (hobj : env.obj = some obj) (a : RunArgs) (fuel : Nat)
    (s : BOState) :
    runOptimizationBy env (seqEvaluation obj env.clock) a fuel s = some (runOptimization env a fuel s) := by
  unfold runOptimizationBy runOptimization
  rw [hobj, runStartBy_seq]
  simp only [boLoopBy_seq]
  rcases h1 : runStart env obj a s with ⟨s1, r⟩
  cases r with
  | error e => simp only
  | ok u =>
    simp only
    rcases h2 : boLoop env obj a.limits.1 a.limits.2 a.eps fuel s1 with ⟨s2, r⟩
    cases r with
    | done why =>
      simp only
      cases hY : s2.Y with
      | none => simp only
      | some Y =>
        simp only
        cases hc : computeResults s2.X Y <;> simp only
    | raised e => simp only
    | running => simp only

/-- Everything the user sees of an object but clock readings and the record of calls. -/
structure SameData (s t : BOState) : Prop where
  X : s.X = t.X
  Y : s.Y = t.Y
  context : s.context = t.context
  numAcq : s.numAcq = t.numAcq
  params : s.params = t.params
  cost : s.cost = t.cost
  results : s.results = t.results
  fits : s.fits = t.fits

theorem SameData.refl (s : BOState) : SameData s s := ⟨rfl, rfl, rfl, rfl, rfl, rfl, rfl, rfl⟩

theorem SameData.symm {s t : BOState} (h : SameData s t) : SameData t s :=
  ⟨h.X.symm, h.Y.symm, h.context.symm, h.numAcq.symm, h.params.symm, h.cost.symm, h.results.symm, h.fits.symm⟩

theorem SameData.trans {s t u : BOState} (h : SameData s t) (h' : SameData t u) : SameData s u :=
  ⟨h.X.trans h'.X, h.Y.trans h'.Y, h.context.trans h'.context, h.numAcq.trans h'.numAcq, h.params.trans h'.params,
    h.cost.trans h'.cost, h.results.trans h'.results, h.fits.trans h'.fits⟩

/-- Model, its parameters and suggestions depend on the data, not on clock readings. -/
structure DataOnly (env : BOEnv) : Prop where
  fit : ∀ s t, SameData s t → env.fit s = env.fit t
  params : ∀ s t, SameData s t → env.params s = env.params t
  suggest : ∀ s t, SameData s t → env.suggest s = env.suggest t

/-- The outcomes of two evaluations agree, up to costs and clock readings. -/
def SameEvaluation (ev ev' : Evaluation) : Prop :=
  ∀ s t m w r w' r', s.X = t.X → s.Y = t.Y → ev s m = some (w, r) → ev' t m = some (w', r') →
    r.map Prod.fst = r'.map Prod.fst

/-- A run that does not look at the cost or at the clock. -/
def RoundsAgree (r r' : Round) : Prop :=
  match r, r' with
  | .next s, .next t => SameData s t
  | .stop s why, .stop t why' => SameData s t ∧ why = why'
  | .raised s e, .raised t e' => SameData s t ∧ e = e'
  | _, _ => False

theorem saveParams_same {env : BOEnv} (hd : DataOnly env) {s t : BOState} (h : SameData s t) :
    SameData (saveParams env s).1 (saveParams env t).1 ∧ (saveParams env s).2 = (saveParams env t).2 := by
  unfold saveParams
  rw [hd.params s t h, ← h.params]
  cases env.params t with
  | error e => exact ⟨h, rfl⟩
  | ok p =>
    cases s.params with
    | none => exact ⟨{ h with params := rfl }, rfl⟩
    | some ps => exact ⟨{ h with params := rfl }, rfl⟩

theorem updateModel_same {env : BOEnv} (hd : DataOnly env) {s t : BOState} (h : SameData s t) :
    SameData (updateModel env s).1 (updateModel env t).1 ∧ (updateModel env s).2 = (updateModel env t).2 := by
  unfold updateModel
  rw [← h.numAcq, ← h.X, ← h.Y]
  split_ifs
  · exact ⟨h, rfl⟩
  · cases env.sp.unzipInputs s.X with
    | error e => exact ⟨h, rfl⟩
    | ok Xm =>
      simp only
      cases hY : s.Y with
      | none => exact ⟨h, rfl⟩
      | some Y =>
        simp only
        have h1 : SameData
            { s with
              Y := some Y
              fits := s.fits ++ [{ acq := s.numAcq, X := Xm, Y := env.modelY Y }] }
            { t with
              X := s.X
              Y := some Y
              numAcq := s.numAcq
              fits := t.fits ++ [{ acq := s.numAcq, X := Xm, Y := env.modelY Y }] } :=
          { h with
            X := rfl
            Y := rfl
            numAcq := rfl
            fits := by simp [h.fits] }
        rw [hd.fit s t h]
        cases env.fit t Xm (env.modelY Y) with
        | error e =>
          simp only
          exact ⟨h1, trivial⟩
        | ok u => exact saveParams_same hd h1
  · exact saveParams_same hd h

theorem update_other_kind {c : CostModel} (hk : c.kind ≠ .evaluationTime) (lg : ℚ → ℚ) (fit : Py Unit) (x : Mat) (t : CostEvals) :
    c.update lg fit x t = (c, .ok ()) := by
  unfold CostModel.update
  cases h : c.kind with
  | evaluationTime => exact absurd h hk
  | constant => rfl
  | userDefined => rfl

/-- Outcomes of two steps that agree. -/
def SameStep (p p' : BOState × Py Unit) : Prop := SameData p.1 p'.1 ∧ p.2 = p'.2

theorem evaluateBy_same {env : BOEnv} {ev ev' : Evaluation} (he : SameEvaluation ev ev') {s t : BOState} (h : SameData s t)
    (hk : s.cost.kind ≠ .evaluationTime) {m : Mat} {p p' : BOState × Py Unit}
    (h1 : evaluateObjectiveBy env ev s m = some p) (h2 : evaluateObjectiveBy env ev' t m = some p') : SameStep p p' := by
  unfold evaluateObjectiveBy at h1 h2
  cases e1 : ev s m with
  | none => simp [e1] at h1
  | some q =>
    cases e2 : ev' t m with
    | none => simp [e2] at h2
    | some q' =>
      obtain ⟨w, r⟩ := q
      obtain ⟨w', r'⟩ := q'
      have hr := he s t m w r w' r' h.X h.Y e1 e2
      rw [e1] at h1
      rw [e2] at h2
      have hk' : t.cost.kind ≠ .evaluationTime := h.cost ▸ hk
      cases r with
      | error e =>
        cases r' with
        | error e' =>
          simp only [Except.map, Except.error.injEq] at hr
          simp only [Option.some.injEq] at h1 h2
          subst h1 h2 hr
          exact ⟨{ h with }, rfl⟩
        | ok q => simp [Except.map] at hr
      | ok q =>
        cases r' with
        | error e' => simp [Except.map] at hr
        | ok q' =>
          simp only [Except.map, Except.ok.injEq] at hr
          simp only [update_other_kind hk, update_other_kind hk', ← h.Y, ← hr] at h1 h2
          cases hY : s.Y with
          | none =>
            simp only [hY, Option.some.injEq] at h1 h2
            subst h1 h2
            exact ⟨{ h with Y := rfl }, rfl⟩
          | some Y =>
            simp only [hY, Option.some.injEq] at h1 h2
            subst h1 h2
            exact ⟨{ h with Y := rfl }, rfl⟩

theorem evaluateBy_cost {env : BOEnv} {ev : Evaluation} {s : BOState} (hk : s.cost.kind ≠ .evaluationTime) {m : Mat}
    {p : BOState × Py Unit} (h : evaluateObjectiveBy env ev s m = some p) : p.1.cost = s.cost := by
  unfold evaluateObjectiveBy at h
  cases e : ev s m with
  | none => simp [e] at h
  | some q =>
    obtain ⟨w, r⟩ := q
    rw [e] at h
    cases r with
    | error e =>
      simp only [Option.some.injEq] at h
      subst h
      rfl
    | ok q =>
      simp only [update_other_kind hk] at h
      cases hY : s.Y with
      | none =>
        simp only [hY, Option.some.injEq] at h
        subst h
        rfl
      | some Y =>
        simp only [hY, Option.some.injEq] at h
        subst h
        rfl

theorem updateModel_cost (env : BOEnv) (s : BOState) : (updateModel env s).1.cost = s.cost := by
  have hs : ∀ t : BOState, (saveParams env t).1.cost = t.cost := by
    intro t
    unfold saveParams
    cases env.params t with
    | error e => rfl
    | ok p => cases t.params <;> rfl
  unfold updateModel
  split_ifs
  · rfl
  · cases env.sp.unzipInputs s.X with
    | error e => rfl
    | ok Xm =>
      simp only
      cases s.Y with
      | none => rfl
      | some Y =>
        simp only
        cases env.fit s Xm (env.modelY Y) with
        | error e => rfl
        | ok u => exact hs _
  · exact hs s

theorem roundBy_same {env : BOEnv} (hd : DataOnly env) {ev ev' : Evaluation} (he : SameEvaluation ev ev') {s t : BOState}
    (h : SameData s t) (hk : s.cost.kind ≠ .evaluationTime) {maxIter : Limit} {eps : ℚ} {r r' : Round}
    (h1 : boRoundBy env ev maxIter .inf eps s = some r) (h2 : boRoundBy env ev' maxIter .inf eps t = some r') :
    RoundsAgree r r' ∧ ∀ s', r = .next s' → s'.cost = s.cost := by
  unfold boRoundBy at h1 h2
  have hinf : ∀ q : ℚ, Limit.inf.exceeds q = true := fun _ => rfl
  simp only [hinf, if_true] at h1 h2
  obtain ⟨u1, u2⟩ := updateModel_same hd h
  have hcost := updateModel_cost env s
  rcases e1 : updateModel env s with ⟨s1, q⟩
  rcases e2 : updateModel env t with ⟨t1, q'⟩
  rw [e1] at u1 u2 h1 hcost
  rw [e2] at u1 u2 h2
  simp only at u1 u2 hcost
  subst u2
  cases q with
  | error e =>
    cases e <;> simp only [Option.some.injEq] at h1 h2 <;> subst h1 h2 <;>
      exact ⟨⟨u1, rfl⟩, fun s' hs => by cases hs⟩
  | ok u =>
    simp only at h1 h2
    rw [← u1.numAcq, ← u1.X] at h2
    split_ifs at h1 h2 with hc
    · simp only [Option.some.injEq] at h1 h2
      subst h1 h2
      exact ⟨⟨u1, rfl⟩, fun s' hs => by cases hs⟩
    · rw [← hd.suggest s1 t1 u1] at h2
      cases hm : env.suggest s1 none none with
      | error e =>
        simp only [hm, Option.some.injEq] at h1 h2
        subst h1 h2
        exact ⟨⟨u1, rfl⟩, fun s' hs => by cases hs⟩
      | ok m =>
        simp only [hm] at h1 h2
        have hx : SameData { s1 with X := s1.X ++ m } { t1 with
            X := s1.X ++ m
            numAcq := s1.numAcq } := { u1 with
          X := rfl
          numAcq := rfl }
        have hk1 : ({ s1 with X := s1.X ++ m } : BOState).cost.kind ≠ .evaluationTime := by
          show s1.cost.kind ≠ _
          rw [hcost]
          exact hk
        cases g1 : evaluateObjectiveBy env ev { s1 with X := s1.X ++ m } m with
        | none => simp [g1] at h1
        | some p =>
          cases g2 : evaluateObjectiveBy env ev' { t1 with
              X := s1.X ++ m
              numAcq := s1.numAcq } m with
          | none => simp [g2] at h2
          | some p' =>
            obtain ⟨v1, v2⟩ := evaluateBy_same he hx hk1 g1 g2
            have hc2 := evaluateBy_cost hk1 g1
            obtain ⟨s2, q⟩ := p
            obtain ⟨t2, q'⟩ := p'
            simp only at v1 v2 hc2
            subst v2
            rw [g1] at h1
            rw [g2] at h2
            cases q with
            | error e =>
              simp only [Option.some.injEq] at h1 h2
              subst h1 h2
              exact ⟨⟨v1, rfl⟩, fun s' hs => by cases hs⟩
            | ok u =>
              simp only [Option.some.injEq] at h1 h2
              subst h1 h2
              refine ⟨{ v1 with numAcq := by simp [v1.numAcq] }, fun s' hs => ?_⟩
              simp only [Round.next.injEq] at hs
              subst hs
              exact hc2.trans hcost

theorem loopBy_same {env : BOEnv} (hd : DataOnly env) {ev ev' : Evaluation} (he : SameEvaluation ev ev')
    {maxIter : Limit} {eps : ℚ} (fuel : Nat) {s t : BOState} (h : SameData s t) (hk : s.cost.kind ≠ .evaluationTime)
    {p p' : BOState × RunResult}
    (h1 : boLoopBy env ev maxIter .inf eps fuel s = some p) (h2 : boLoopBy env ev' maxIter .inf eps fuel t = some p') :
    SameData p.1 p'.1 ∧ p.2 = p'.2 := by
  induction fuel generalizing s t with
  | zero =>
    simp only [boLoopBy, Option.some.injEq] at h1 h2
    subst h1 h2
    exact ⟨h, rfl⟩
  | succ fuel ih =>
    unfold boLoopBy at h1 h2
    cases g1 : boRoundBy env ev maxIter .inf eps s with
    | none => simp [g1] at h1
    | some r =>
      cases g2 : boRoundBy env ev' maxIter .inf eps t with
      | none => simp [g2] at h2
      | some r' =>
        obtain ⟨v1, v2⟩ := roundBy_same hd he h hk g1 g2
        rw [g1] at h1
        rw [g2] at h2
        cases r with
        | next s' =>
          cases r' with
          | next t' => exact ih v1 (by rw [v2 s' rfl]; exact hk) h1 h2
          | stop t' w => exact v1.elim
          | raised t' e => exact v1.elim
        | stop s' w =>
          cases r' with
          | next t' => exact v1.elim
          | stop t' w' =>
            simp only [Option.some.injEq] at h1 h2
            subst h1 h2
            exact ⟨v1.1, by rw [v1.2]⟩
          | raised t' e => exact v1.elim
        | raised s' e =>
          cases r' with
          | next t' => exact v1.elim
          | stop t' w => exact v1.elim
          | raised t' e' =>
            simp only [Option.some.injEq] at h1 h2
            subst h1 h2
            exact ⟨v1.1, by rw [v1.2]⟩

theorem startBy_same {env : BOEnv} {ev ev' : Evaluation} (he : SameEvaluation ev ev') (a : RunArgs)
    {s t : BOState} (h : SameData s t) (hk : s.cost.kind ≠ .evaluationTime)
    {p p' : BOState × Py Unit} (h1 : runStartBy env ev a s = some p) (h2 : runStartBy env ev' a t = some p') :
    SameStep p p' ∧ p.1.cost = s.cost := by
  obtain ⟨X, Y, c, k, ps, cost, z, cum, res, w, fits⟩ := s
  obtain ⟨X', Y', c', k', ps', cost', z', cum', res', w', fits'⟩ := t
  obtain ⟨hX, hY, hc, hn, hp, ho, hr, hf⟩ := h
  simp only at hX hY hc hn hp ho hr hf hk
  subst hX hY hc hn hp ho hr hf
  unfold runStartBy at h1 h2
  cases Y with
  | some Y =>
    simp only [Option.some.injEq] at h1 h2
    subst h1 h2
    exact ⟨⟨⟨rfl, rfl, rfl, rfl, rfl, rfl, rfl, rfl⟩, rfl⟩, rfl⟩
  | none =>
    simp only at h1 h2
    rcases e1 : ev ⟨X, none, a.context, k, none, cost, z, cum, res, w, fits⟩ X with _ | ⟨v, r⟩
    · simp [e1] at h1
    · rcases e2 : ev' ⟨X, none, a.context, k, none, cost, z', cum', res, w', fits⟩ X with _ | ⟨v', r'⟩
      · simp [e2] at h2
      · have hr := he ⟨X, none, a.context, k, none, cost, z, cum, res, w, fits⟩
          ⟨X, none, a.context, k, none, cost, z', cum', res, w', fits⟩ X v r v' r' rfl rfl e1 e2
        rw [e1] at h1
        rw [e2] at h2
        cases r with
        | error e =>
          cases r' with
          | error e' =>
            simp only [Except.map, Except.error.injEq] at hr
            simp only [Option.some.injEq] at h1 h2
            subst h1 h2 hr
            exact ⟨⟨⟨rfl, rfl, rfl, rfl, rfl, rfl, rfl, rfl⟩, rfl⟩, rfl⟩
          | ok q => simp [Except.map] at hr
        | ok q =>
          cases r' with
          | error e' => simp [Except.map] at hr
          | ok q' =>
            simp only [Except.map, Except.ok.injEq] at hr
            simp only [if_neg hk, ← hr, Option.some.injEq] at h1 h2
            subst h1 h2
            exact ⟨⟨⟨rfl, rfl, rfl, rfl, rfl, rfl, rfl, rfl⟩, rfl⟩, rfl⟩

theorem runBy_same {env : BOEnv} (hd : DataOnly env) {ev ev' : Evaluation} (he : SameEvaluation ev ev') (a : RunArgs)
    (ha : a.maxTime = none ∨ a.maxTime = some .inf) (fuel : Nat) {s t : BOState} (h : SameData s t)
    (hk : s.cost.kind ≠ .evaluationTime) {p p' : BOState × RunResult}
    (h1 : runOptimizationBy env ev a fuel s = some p) (h2 : runOptimizationBy env ev' a fuel t = some p') :
    SameData p.1 p'.1 ∧ p.2 = p'.2 := by
  have hinf : a.limits.2 = .inf := by
    unfold RunArgs.limits
    rcases ha with ha | ha <;> rw [ha] <;> cases a.maxIter <;> rfl
  unfold runOptimizationBy at h1 h2
  rw [hinf] at h1 h2
  cases g1 : runStartBy env ev a s with
  | none => simp [g1] at h1
  | some q =>
    cases g2 : runStartBy env ev' a t with
    | none => simp [g2] at h2
    | some q' =>
      obtain ⟨⟨v1, v2⟩, v3⟩ := startBy_same he a h hk g1 g2
      obtain ⟨s1, r⟩ := q
      obtain ⟨t1, r'⟩ := q'
      simp only at v1 v2 v3
      subst v2
      rw [g1] at h1
      rw [g2] at h2
      cases r with
      | error e =>
        simp only [Option.some.injEq] at h1 h2
        subst h1 h2
        exact ⟨v1, rfl⟩
      | ok u =>
        simp only at h1 h2
        cases k1 : boLoopBy env ev a.limits.1 .inf a.eps fuel s1 with
        | none => simp [k1] at h1
        | some q =>
          cases k2 : boLoopBy env ev' a.limits.1 .inf a.eps fuel t1 with
          | none => simp [k2] at h2
          | some q' =>
            obtain ⟨w1, w2⟩ := loopBy_same hd he fuel v1 (by rw [v3]; exact hk) k1 k2
            obtain ⟨s2, r⟩ := q
            obtain ⟨t2, r'⟩ := q'
            simp only at w1 w2
            subst w2
            rw [k1] at h1
            rw [k2] at h2
            cases r with
            | done why =>
              simp only at h1 h2
              rw [← w1.Y, ← w1.X] at h2
              cases hY : s2.Y with
              | none =>
                simp only [hY, Option.some.injEq] at h1 h2
                subst h1 h2
                exact ⟨w1, rfl⟩
              | some Y =>
                simp only [hY] at h1 h2
                cases hc : computeResults s2.X Y with
                | error e =>
                  simp only [hc, Option.some.injEq] at h1 h2
                  subst h1 h2
                  exact ⟨w1, rfl⟩
                | ok r =>
                  simp only [hc, Option.some.injEq] at h1 h2
                  subst h1 h2
                  exact ⟨{ w1 with
                    X := rfl
                    Y := rfl
                    results := rfl }, rfl⟩
            | raised e =>
              simp only [Option.some.injEq] at h1 h2
              subst h1 h2
              exact ⟨w1, rfl⟩
            | running =>
              simp only [Option.some.injEq] at h1 h2
              subst h1 h2
              exact ⟨w1, rfl⟩

theorem evaluates_fst {n : Nat} (hn : 1 ≤ n) {f : Vec → Py ℚ} {size : Vec → Nat} {cap : Nat} {canStart : Bool}
    {clock : Nat → ℚ} {w : World} {m : Mat} {r : Py (Vec × CostEvals)}
    (h : ObjEvaluates n f size cap canStart clock w m r) :
    r.map Prod.fst = (evalFunc (fun _ => f) clock m w).2.map Prod.fst := by
  cases h with
  | sequential h1 => cases (evalFunc (fun _ => f) clock m w).2 <;> rfl
  | parallel h1 hp => exact (C48_parallel_equals_sequential _ hn clock w _ hp).1

theorem evalFunc_fst (f : Vec → Py ℚ) (clock clock' : Nat → ℚ) (m : Mat) (w w' : World) :
    (evalFunc (fun _ => f) clock m w).2.map Prod.fst = (evalFunc (fun _ => f) clock' m w').2.map Prod.fst := by
  induction m generalizing w w' with
  | nil => rfl
  | cons x m ih =>
    unfold evalFunc
    cases hf : f x with
    | error e => rfl
    | ok y =>
      simp only
      have := ih { calls := w.calls ++ [(x, .ok y)], ticks := w.ticks + 2 } { calls := w'.calls ++ [(x, .ok y)], ticks := w'.ticks + 2 }
      rcases e1 : evalFunc (fun _ => f) clock m { calls := w.calls ++ [(x, .ok y)], ticks := w.ticks + 2 } with ⟨u, r⟩
      rcases e2 : evalFunc (fun _ => f) clock' m { calls := w'.calls ++ [(x, .ok y)], ticks := w'.ticks + 2 } with ⟨u', r'⟩
      rw [e1, e2] at this
      cases r with
      | error e =>
        cases r' with
        | error e' => simpa [Except.map] using this
        | ok q => simp [Except.map] at this
      | ok q =>
        cases r' with
        | error e' => simp [Except.map] at this
        | ok q' =>
          simp only [Except.map, Except.ok.injEq] at this
          simp [Except.map, this]

/-- **C153.** Two runs of an object, the one with `n`, the other with `n'` processes, under any interleavings of the processes,
with any clocks, and with or without failures to start the processes. If the objective is a function of the location, the
cost is not the evaluation time, and there is no limit of the time, then both runs, if they return, return or raise the same,
and the object has the same locations, outputs, results, parameters and calls of the model. -/
theorem C153_processes_do_not_matter (f : Vec → Py ℚ) {n n' : Nat} (hn : 1 ≤ n) (hn' : 1 ≤ n') (size size' : Vec → Nat)
    (cap cap' : Nat) (canStart canStart' : Bool) (clock clock' : Nat → ℚ) (ev ev' : Evaluation)
    (hev : ProcessEvaluation n f size cap canStart clock ev) (hev' : ProcessEvaluation n' f size' cap' canStart' clock' ev')
    (env : BOEnv) (hd : DataOnly env) (a : RunArgs) (ha : a.maxTime = none ∨ a.maxTime = some .inf) (fuel : Nat)
    (s t : BOState) (h : SameData s t) (hk : s.cost.kind ≠ .evaluationTime) (s' t' : BOState) (r r' : RunResult)
    (h1 : runOptimizationBy env ev a fuel s = some (s', r)) (h2 : runOptimizationBy env ev' a fuel t = some (t', r')) :
    SameData s' t' ∧ r = r' := by
  refine runBy_same hd ?_ a ha fuel h hk h1 h2
  intro u v m w q w' q' _ _ e1 e2
  rw [evaluates_fst hn (hev _ _ _ _ e1), evaluates_fst hn' (hev' _ _ _ _ e2)]
  exact evalFunc_fst f clock clock' m u.world v.world

/-- **C153.** In particular every run with several processes that returns is, up to clock readings, the run with one process of
the other properties. -/
theorem C153_as_one_process (f : Vec → Py ℚ) {n : Nat} (hn : 1 ≤ n) (size : Vec → Nat) (cap : Nat) (canStart : Bool)
    (clock : Nat → ℚ) (ev : Evaluation) (hev : ProcessEvaluation n f size cap canStart clock ev) (env : BOEnv)
    (hobj : env.obj = some fun _ => f) (hd : DataOnly env) (a : RunArgs) (ha : a.maxTime = none ∨ a.maxTime = some .inf)
    (fuel : Nat) (s : BOState) (hk : s.cost.kind ≠ .evaluationTime) (s' : BOState) (r : RunResult)
    (h1 : runOptimizationBy env ev a fuel s = some (s', r)) :
    ∃ t', runOptimization env a fuel s = (t', r) ∧ SameData s' t' := by
  rcases hrun : runOptimization env a fuel s with ⟨t', r'⟩
  have hone := C153_one_process env _ hobj a fuel s
  rw [hrun] at hone
  obtain ⟨h2, h3⟩ := C153_processes_do_not_matter f hn le_rfl size size cap cap canStart canStart clock env.clock ev
    (seqEvaluation (fun _ => f) env.clock) hev (by
      intro u m w q e
      unfold seqEvaluation at e
      simp only [Option.some.injEq, Prod.mk.injEq] at e
      rw [← e.2]
      exact .sequential rfl) env hd a ha fuel s s (SameData.refl s) hk s' t' r r' h1 hone
  exact ⟨t', by rw [h3], h2⟩

theorem runBy_returns (env : BOEnv) (ev : Evaluation) (hev : ∀ s m, ev s m ≠ none) (a : RunArgs) (fuel : Nat) (s : BOState) :
    ∃ p, runOptimizationBy env ev a fuel s = some p := by
  have hobj : ∀ s m, ∃ p, evaluateObjectiveBy env ev s m = some p := by
    intro s m
    unfold evaluateObjectiveBy
    rcases e : ev s m with _ | ⟨w, r⟩
    · exact absurd e (hev s m)
    · cases r with
      | error e => exact ⟨_, rfl⟩
      | ok q =>
        simp only
        rcases s.cost.update env.lg (env.costFit s) m q.2 with ⟨c, r⟩
        cases r with
        | error e => exact ⟨_, rfl⟩
        | ok u => cases s.Y <;> exact ⟨_, rfl⟩
  have hround : ∀ s, ∃ r, boRoundBy env ev a.limits.1 a.limits.2 a.eps s = some r := by
    intro s
    unfold boRoundBy
    split_ifs
    · rcases updateModel env s with ⟨s1, r⟩
      cases r with
      | error e => cases e <;> exact ⟨_, rfl⟩
      | ok u =>
        simp only
        split_ifs
        · exact ⟨_, rfl⟩
        · cases env.suggest s1 none none with
          | error e => exact ⟨_, rfl⟩
          | ok m =>
            simp only
            obtain ⟨⟨s2, r⟩, h⟩ := hobj { s1 with X := s1.X ++ m } m
            rw [h]
            cases r <;> exact ⟨_, rfl⟩
    · exact ⟨_, rfl⟩
  have hloop : ∀ fuel s, ∃ p, boLoopBy env ev a.limits.1 a.limits.2 a.eps fuel s = some p := by
    intro fuel
    induction fuel with
    | zero => exact fun s => ⟨_, rfl⟩
    | succ fuel ih =>
      intro s
      unfold boLoopBy
      obtain ⟨r, h⟩ := hround s
      rw [h]
      cases r with
      | next s' => exact ih s'
      | stop s' w => exact ⟨_, rfl⟩
      | raised s' e => exact ⟨_, rfl⟩
  have hstart : ∃ p, runStartBy env ev a s = some p := by
    unfold runStartBy
    cases s.Y with
    | some Y => exact ⟨_, rfl⟩
    | none =>
      simp only
      rcases e : ev { s with
        Y := none
        params := none
        context := a.context } s.X with _ | ⟨w, r⟩
      · exact absurd e (hev _ _)
      · cases r with
        | error e => exact ⟨_, rfl⟩
        | ok q =>
          simp only
          split_ifs
          · rcases s.cost.update env.lg (env.costFit { s with
              params := none
              context := a.context
              world := w
              Y := some q.1 }) s.X q.2 with ⟨c, r⟩
            cases r <;> exact ⟨_, rfl⟩
          · exact ⟨_, rfl⟩
  unfold runOptimizationBy
  obtain ⟨⟨s1, r⟩, h1⟩ := hstart
  rw [h1]
  cases r with
  | error e => exact ⟨_, rfl⟩
  | ok u =>
    simp only
    obtain ⟨⟨s2, r⟩, h2⟩ := hloop fuel s1
    rw [h2]
    cases r with
    | done why =>
      simp only
      cases s2.Y with
      | none => exact ⟨_, rfl⟩
      | some Y =>
        simp only
        cases computeResults s2.X Y <;> exact ⟨_, rfl⟩
    | raised e => exact ⟨_, rfl⟩
    | running => exact ⟨_, rfl⟩

/-- From every state of an evaluation that cannot hang an end is reached. -/
theorem parEvaluates_exists (c : ParCfg) (hn : 1 ≤ c.n) (hf : ∀ row ∈ c.x, ∃ y, c.f row = .ok y)
    (hsz : ∀ v, v.length ≤ c.x.length → c.size v ≤ c.cap) (clock : Nat → ℚ) (w : World) :
    ∃ r, ParEvaluates c clock w r := by
  obtain ⟨⟨bound, hb⟩, hstop, -⟩ := C50_terminates_partial c hn hf hsz
  by_contra hno
  have hrun : ∀ k, ∃ s, ParRun c k s := by
    intro k
    induction k with
    | zero => exact ⟨_, .zero⟩
    | succ k ih =>
      obtain ⟨s, hs⟩ := ih
      by_cases ht : ∃ t, ParStep c s t
      · obtain ⟨t, ht⟩ := ht
        exact ⟨t, .succ hs ht⟩
      · rcases hstop k s hs ht with ⟨acc, h⟩ | h
        · exact absurd ⟨_, .parallel hs h⟩ hno
        · exact absurd ⟨_, .fallback hs h⟩ hno
  obtain ⟨s, hs⟩ := hrun (bound + 1)
  have := hb _ s hs
  omega

/-- **C153 (the runs exist).** If the objective never raises and the messages of the processes fit into the pipes, then there are
evaluations by `n` processes that always return, and every run with them returns. -/
theorem C153_returns (f : Vec → Py ℚ) (hf : ∀ x, ∃ y, f x = .ok y) {n : Nat} (hn : 1 ≤ n) (size : Vec → Nat) (cap : Nat)
    (hsz : ∀ v, size v ≤ cap) (canStart : Bool) (clock : Nat → ℚ) :
    ∃ ev, ProcessEvaluation n f size cap canStart clock ev ∧
      ∀ env a fuel s, ∃ p, runOptimizationBy env ev a fuel s = some p := by
  have hex : ∀ (s : BOState) m, ∃ r, ObjEvaluates n f size cap canStart clock s.world m r := by
    intro s m
    by_cases h1 : n = 1
    · exact ⟨_, .sequential h1⟩
    · obtain ⟨r, hr⟩ := parEvaluates_exists { n := n, f := f, x := m, size := size, cap := cap, canStart := canStart } hn
        (fun row _ => hf row) (fun v _ => hsz v) clock s.world
      exact ⟨r, .parallel h1 hr⟩
  choose r hr using hex
  refine ⟨fun s m => some (s.world, r s m), ?_, fun env a fuel s => runBy_returns env _ (by simp) a fuel s⟩
  intro s m w q h
  simp only [Option.some.injEq, Prod.mk.injEq] at h
  rw [← h.2]
  exact hr s m

/-- **C153 (an exception of the objective).** The number of processes does matter if the objective raises: with several processes
that can be started, a run whose initial design has such a location never returns; with one process it raises. -/
theorem C153_exception_counterexample (f : Vec → Py ℚ) {n : Nat} (hn : 2 ≤ n) (size : Vec → Nat) (cap : Nat)
    (clock : Nat → ℚ) (ev : Evaluation) (hev : ProcessEvaluation n f size cap true clock ev) (env : BOEnv)
    (hobj : env.obj = some fun _ => f) (a : RunArgs) (fuel : Nat) (s : BOState) (hY : s.Y = none) (row : Vec) (hrow : row ∈ s.X)
    (e : Err) (he : f row = .error e) :
    runOptimizationBy env ev a fuel s = none ∧ ∃ t e', runOptimization env a fuel s = (t, .raised e') := by
  constructor
  · unfold runOptimizationBy runStartBy
    rw [hY]
    simp only
    rcases h : ev { s with
      Y := none
      params := none
      context := a.context } s.X with _ | ⟨w, r⟩
    · simp only
    · exfalso
      cases hev _ _ _ _ h with
      | sequential h1 => omega
      | parallel h1 hp => exact (C49_worker_failure_counterexample _ (by show 1 ≤ n; omega) rfl row hrow e he).2.2 clock _ _ hp
  · have hfail : ∀ (m : Mat) (w : World), row ∈ m → ∃ e', (evalFunc (fun _ => f) env.clock m w).2 = .error e' := by
      intro m
      induction m with
      | nil => exact fun w h => by simp at h
      | cons x m ih =>
        intro w h
        unfold evalFunc
        cases hx : f x with
        | error e' => exact ⟨e', rfl⟩
        | ok y =>
          rcases List.mem_cons.mp h with h | h
          · rw [h, hx] at he
            cases he
          · obtain ⟨e', h'⟩ := ih { calls := w.calls ++ [(x, .ok y)], ticks := w.ticks + 2 } h
            simp only
            rcases e1 : evalFunc (fun _ => f) env.clock m { calls := w.calls ++ [(x, .ok y)], ticks := w.ticks + 2 } with ⟨u, r⟩
            rw [e1] at h'
            simp only at h'
            subst h'
            exact ⟨e', rfl⟩
    obtain ⟨e', h'⟩ := hfail s.X s.world hrow
    unfold runOptimization runStart
    rw [hobj, hY]
    simp only
    rcases e1 : evalFunc (fun _ => f) env.clock s.X s.world with ⟨u, r⟩
    rw [e1] at h'
    simp only at h'
    subst h'
    exact ⟨_, e', rfl⟩

/-- **C153 (the cost is the evaluation time).** Nor does it hold if the cost is the evaluation time: with several processes the
initial design, if it has two or more locations, makes the first run raise `ValueError`, whatever the clock. -/
theorem C153_evaluation_time_counterexample (f : Vec → Py ℚ) {n : Nat} (hn : 2 ≤ n) (size : Vec → Nat) (cap : Nat)
    (clock : Nat → ℚ) (ev : Evaluation) (hev : ProcessEvaluation n f size cap true clock ev) (env : BOEnv) (a : RunArgs)
    (fuel : Nat) (s : BOState) (hY : s.Y = none) (hX : 2 ≤ s.X.length) (hf : ∀ x ∈ s.X, ∃ y, f x = .ok y)
    (hsz : ∀ v : Vec, v.length ≤ s.X.length → size v ≤ cap)
    (hk : s.cost.kind = .evaluationTime) (hu : s.cost.numUpdates = 0) (s' : BOState) (r : RunResult)
    (h : runOptimizationBy env ev a fuel s = some (s', r)) : r = .raised .valueError := by
  unfold runOptimizationBy runStartBy at h
  rw [hY] at h
  simp only at h
  rcases e : ev { s with
    Y := none
    params := none
    context := a.context } s.X with _ | ⟨w, q⟩
  · rw [e] at h
    cases h
  · rw [e] at h
    have hcol : ∃ ys, q = .ok (ys, .column (List.replicate s.X.length 1)) := by
      cases hev _ _ _ _ e with
      | sequential h1 => omega
      | parallel h1 hp =>
        cases hp with
        | parallel hr hd => exact ⟨_, rfl⟩
        | fallback hr hd =>
          exact absurd hd ((C50_terminates_partial _ (by show 1 ≤ n; omega) hf hsz).2.2 rfl _ _ hr)
    obtain ⟨ys, rfl⟩ := hcol
    have hup : ∀ u, (s.cost.update env.lg u s.X (.column (List.replicate s.X.length 1))).2 = .error .valueError := by
      intro u
      unfold CostModel.update
      rw [hk]
      obtain ⟨k, hk⟩ : ∃ k, s.X.length = k + 2 := ⟨s.X.length - 2, by omega⟩
      have : columnValues (costColumn env.lg (.column (List.replicate s.X.length 1))) = none := by
        rw [hk]
        simp [costColumn, List.replicate_succ, columnValues]
      simp only [this, hu, if_true]
    simp only [hk, if_true] at h
    rcases e2 : s.cost.update env.lg (env.costFit { s with
        Y := some ys
        params := none
        context := a.context
        world := w }) s.X (.column (List.replicate s.X.length 1)) with ⟨c, v⟩
    have hv := hup (env.costFit { s with
        Y := some ys
        params := none
        context := a.context
        world := w })
    rw [e2] at hv h
    simp only at hv
    subst hv
    simp only [Option.some.injEq, Prod.mk.injEq] at h
    exact h.2.symm

/-- The usual suggestions depend on the data only if model and acquisition do. -/
theorem stdSuggest_dataOnly (sp : Space) (ev : Evaluator) (envs : BOState → EvalEnv)
    (he : ∀ s t, SameData s t → envs s = envs t) (deDup : Bool) (s t : BOState) (h : SameData s t) :
    stdSuggest sp ev envs deDup s = stdSuggest sp ev envs deDup t := by
  funext p i
  unfold stdSuggest
  rw [he s t h, h.context, h.X]

/-- The components of the examples depend on the data only. -/
example (sp : Space) : DataOnly (exSearch sp) where
  fit := fun _ _ _ => rfl
  params := fun s t h => by
    show (.ok [(s.fits.length : ℚ)] : Py Vec) = .ok [(t.fits.length : ℚ)]
    rw [h.fits]
  suggest := fun s t h => stdSuggest_dataOnly sp .sequential (fun _ => exEnv) (fun _ _ _ => rfl) true s t h

/-- Three processes: there are evaluations that always return, all runs with them return, and they are those of one process. -/
example (sp : Space) : ∃ ev, ProcessEvaluation 3 (fun x => .ok ((x.headD 0 - 2) ^ 2)) (fun _ => 10) 100 true (fun k => 7 * k) ev ∧
    ∃ p, runOptimizationBy (exSearch sp) ev { maxIter := some (.fin 2) } 10 (boInit [[0], [3]] none .none) = some p ∧
      p.2 = (runOptimization (exSearch sp) { maxIter := some (.fin 2) } 10 (boInit [[0], [3]] none .none)).2 := by
  obtain ⟨ev, hev, hr⟩ := C153_returns (fun x => .ok ((x.headD 0 - 2) ^ 2)) (fun x => ⟨_, rfl⟩) (n := 3) (by decide)
    (fun _ => 10) 100 (fun _ => by decide) true (fun k => 7 * k)
  obtain ⟨⟨s', r⟩, hp⟩ := hr (exSearch sp) { maxIter := some (.fin 2) } 10 (boInit [[0], [3]] none .none)
  obtain ⟨t', ht, -⟩ := C153_as_one_process _ (by decide) _ _ _ _ ev hev (exSearch sp) rfl
    ⟨fun _ _ _ => rfl, fun s t h => by
      show (.ok [(s.fits.length : ℚ)] : Py Vec) = .ok [(t.fits.length : ℚ)]
      rw [h.fits],
      fun s t h => stdSuggest_dataOnly sp .sequential (fun _ => exEnv) (fun _ _ _ => rfl) true s t h⟩
    { maxIter := some (.fin 2) } (.inr rfl) 10 _ (by decide) s' r hp
  exact ⟨ev, hev, _, hp, by rw [ht]⟩

end GPyOpt.Props
