import Verif.Lemmas.Corr
import Verif.Lemmas.BO

/-! # Lemmas about corresponding problems: runs -/

namespace GPyOpt

open Spec Props

section

variable {P : Vec → Prop} {n : Nat} {E O : Vec → Vec} {κ : Option Context → Option Context} {pc : Vec → Vec} {env env' : BOEnv}

/-- There are rows, all in `P`. -/
def RowsIn (P : Vec → Prop) (X : Mat) : Prop := X ≠ [] ∧ ∀ r ∈ X, P r

/-- Rows in `P` are encoded correspondingly. -/
def SameUnzipIn (P : Vec → Prop) (E O : Vec → Vec) (sp sp' : Space) : Prop :=
  ∀ X : Mat, RowsIn P X → sp'.unzipInputs (X.map O) = (sp.unzipInputs X).map (List.map E)

/-- The stopping rule answers the same for corresponding rows in `P`. -/
def SameStoppedIn (P : Vec → Prop) (O : Vec → Vec) (eps eps' : ℚ) : Prop :=
  ∀ X : Mat, RowsIn P X → lastTwoClose eps' (X.map O) = lastTwoClose eps X

/-- There are rows, all of length `n`. -/
def RowsOf (n : Nat) (X : Mat) : Prop := X ≠ [] ∧ ∀ r ∈ X, r.length = n

/-- Rows of length `n` are encoded correspondingly. -/
def SameUnzip (n : Nat) (E O : Vec → Vec) (sp sp' : Space) : Prop :=
  ∀ X : Mat, RowsOf n X → sp'.unzipInputs (X.map O) = (sp.unzipInputs X).map (List.map E)

/-- The stopping rule answers the same for corresponding rows. -/
def SameStopped (n : Nat) (O : Vec → Vec) (eps eps' : ℚ) : Prop :=
  ∀ X : Mat, RowsOf n X → lastTwoClose eps' (X.map O) = lastTwoClose eps X

theorem evalFunc_corr {obj obj' : Nat → Vec → Py ℚ} (ho : ∀ k x, obj' k (O x) = obj k x)
    (clock : Nat → ℚ) (m : Mat) : ∀ w : World,
    evalFunc obj' clock (m.map O) { w with calls := w.calls.map fun p => (O p.1, p.2) }
      = ({ (evalFunc obj clock m w).1 with
            calls := (evalFunc obj clock m w).1.calls.map fun p => (O p.1, p.2) },
          (evalFunc obj clock m w).2) := by
  induction m with
  | nil => intro w; rfl
  | cons x m ih =>
    intro w
    simp only [List.map_cons, evalFunc, List.length_map, ho]
    cases obj w.calls.length x with
    | error e => simp
    | ok y =>
      have := ih { calls := w.calls ++ [(x, .ok y)], ticks := w.ticks + 2 }
      simp only [List.map_append, List.map_cons, List.map_nil] at this
      simp only [this]
      cases evalFunc obj clock m { calls := w.calls ++ [(x, .ok y)], ticks := w.ticks + 2 } with
      | mk w' r => cases r <;> rfl

theorem costUpdate_corr (lg : ℚ → ℚ) (fit : Py Unit) (c : CostModel) (m : Mat) (t : CostEvals) :
    ({ c with data := c.data.map fun d => (d.1.map O, d.2) } : CostModel).update lg fit
        (m.map O) t
      = ({ (c.update lg fit m t).1 with
            data := (c.update lg fit m t).1.data.map fun d => (d.1.map O, d.2) },
          (c.update lg fit m t).2) := by
  obtain ⟨k, n, d⟩ := c
  cases k with
  | constant => rfl
  | userDefined => rfl
  | evaluationTime =>
    simp only [CostModel.update]
    cases columnValues (costColumn lg t) with
    | none =>
      by_cases h0 : n = 0
      · simp only [if_pos h0]
      · simp only [if_neg h0]
        cases d <;> rfl
    | some new =>
      simp only [List.length_map]
      by_cases h0 : n = 0
      · simp only [if_pos h0]
        by_cases h1 : m.length = new.length
        · simp only [if_pos h1, Option.map_some]
        · simp only [if_neg h1]
      · simp only [if_neg h0]
        cases d with
        | none => rfl
        | some d =>
          obtain ⟨X, Y⟩ := d
          simp only [Option.map_some, List.length_append, List.length_map]
          by_cases h1 : X.length + m.length = Y.length + new.length
          · simp only [if_pos h1, Option.map_some, List.map_append]
          · simp only [if_neg h1, Option.map_some]

local notation "cs" => mapState E O κ pc

theorem saveParams_corr (hp : CorrParts E O κ pc env env') (s : BOState) :
    saveParams env' (cs s) = (cs (saveParams env s).1, (saveParams env s).2) := by
  unfold saveParams
  rw [hp.params]
  cases env.params s with
  | error e => rfl
  | ok p =>
    simp only [Except_map_ok]
    have : (cs s).params = s.params.map (List.map pc) := rfl
    rw [this]
    cases hs : s.params with
    | none => simp [mapState]
    | some ps => simp [mapState]

theorem updateModel_corr (hunz : SameUnzipIn P E O env.sp env'.sp) (hp : CorrParts E O κ pc env env')
    {s : BOState} (hl : RowsIn P s.X) :
    updateModel env' (cs s) = (cs (updateModel env s).1, (updateModel env s).2) := by
  unfold updateModel
  rw [hp.interval]
  have hn : (cs s).numAcq = s.numAcq := rfl
  have hx : (cs s).X = s.X.map O := rfl
  have hy : (cs s).Y = s.Y := rfl
  rw [hn, hx, hy, hunz s.X hl]
  by_cases g0 : env.interval = 0
  · simp only [if_pos g0]
  · simp only [if_neg g0]
    by_cases g1 : (s.numAcq : Int) % env.interval = 0
    · simp only [if_pos g1]
      cases env.sp.unzipInputs s.X with
      | error e => rfl
      | ok Xm =>
        simp only [Except_map_ok]
        cases hY : s.Y with
        | none => rfl
        | some Y =>
          have hm : env'.modelY Y = env.modelY Y := by
            simp only [BOEnv.modelY, hp.normalizeY, hp.normalize]
          simp only [hm, hp.fit]
          cases env.fit s Xm (env.modelY Y) with
          | error e => simp [mapState]
          | ok _ =>
            refine (congrArg (saveParams env') ?_).trans (saveParams_corr hp
              { s with Y := some Y, fits := s.fits ++ [{ acq := s.numAcq, X := Xm, Y := env.modelY Y }] })
            simp [mapState]
    · simp only [if_neg g1]
      exact saveParams_corr hp s

theorem evaluateObjective_corr (hp : CorrParts E O κ pc env env') {obj obj' : Nat → Vec → Py ℚ}
    (ho : ∀ k x, obj' k (O x) = obj k x) (s : BOState) (m : Mat) :
    evaluateObjective env' obj' (cs s) (m.map O)
      = (cs (evaluateObjective env obj s m).1, (evaluateObjective env obj s m).2) := by
  unfold evaluateObjective
  have he := evalFunc_corr ho env.clock m s.world
  have hw : (cs s).world = { s.world with calls := s.world.calls.map fun p => (O p.1, p.2) } := rfl
  have hc : (cs s).cost = { s.cost with data := s.cost.data.map fun d => (d.1.map O, d.2) } := rfl
  have hy : (cs s).Y = s.Y := rfl
  rw [hp.clock, hw, he, hc, hy, hp.lg, hp.costFit]
  cases evalFunc obj env.clock m s.world with
  | mk w r =>
    cases r with
    | error e => rfl
    | ok q =>
      obtain ⟨ys, ts⟩ := q
      simp only [costUpdate_corr]
      cases s.cost.update env.lg (env.costFit s) m (.list ts) with
      | mk c r =>
        cases r with
        | error e => rfl
        | ok _ =>
          simp only
          cases s.Y <;> rfl

theorem lastTwoClose_corr {eps eps' : ℚ} (hs : SameStoppedIn P O eps eps') {s : BOState}
    (hl : RowsIn P s.X) : lastTwoClose eps' (cs s).X = lastTwoClose eps s.X :=
  hs s.X hl

theorem boRound_corr (hunz : SameUnzipIn P E O env.sp env'.sp) (hp : CorrParts E O κ pc env env')
    {obj obj' : Nat → Vec → Py ℚ}
    (ho : ∀ k x, obj' k (O x) = obj k x) {eps eps' : ℚ} (hstop : SameStoppedIn P O eps eps')
    {ctx : Option Context}
    (hs : ∀ s, s.context = ctx → RowsIn P s.X → env'.suggest (cs s) none none
      = (env.suggest s none none).map (List.map O))
    (maxIter maxTime : Limit) {s : BOState} (hc : s.context = ctx)
    (hl : RowsIn P s.X) :
    boRound env' obj' maxIter maxTime eps' (cs s) = convRound cs (boRound env obj maxIter maxTime eps s) := by
  unfold boRound
  have ht : (cs s).cumTime = s.cumTime := rfl
  rw [ht]
  by_cases g : maxTime.exceeds s.cumTime = true
  · rw [if_pos g, if_pos g, updateModel_corr hunz hp hl]
    have hu : (updateModel env s).1.context = s.context ∧ (updateModel env s).1.X = s.X := by
      unfold updateModel saveParams
      split_ifs
      · exact ⟨rfl, rfl⟩
      · split
        · exact ⟨rfl, rfl⟩
        · split
          · exact ⟨rfl, rfl⟩
          · simp only
            split
            · exact ⟨rfl, rfl⟩
            · split
              · exact ⟨rfl, rfl⟩
              · split <;> exact ⟨rfl, rfl⟩
      · split
        · exact ⟨rfl, rfl⟩
        · split <;> exact ⟨rfl, rfl⟩
    cases hup : updateModel env s with
    | mk t r =>
      rw [hup] at hu
      simp only at hu
      cases r with
      | error e => cases e <;> rfl
      | ok _ =>
        simp only
        have hg : (¬ maxIter.exceeds ((cs t).numAcq : ℚ) = true ∨ lastTwoClose eps' (cs t).X = true)
            ↔ (¬ maxIter.exceeds (t.numAcq : ℚ) = true ∨ lastTwoClose eps t.X = true) := by
          rw [lastTwoClose_corr (s := t) hstop (by rw [hu.2]; exact hl)]
          exact Iff.rfl
        by_cases g2 : ¬ maxIter.exceeds (t.numAcq : ℚ) = true ∨ lastTwoClose eps t.X = true
        · rw [if_pos (hg.2 g2), if_pos g2]; rfl
        · rw [if_neg (fun q => g2 (hg.1 q)), if_neg g2, hs t (hu.1.trans hc) (by rw [hu.2]; exact hl)]
          cases env.suggest t none none with
          | error e => rfl
          | ok m =>
            simp only [Except_map_ok]
            have hx : ({ cs t with X := (cs t).X ++ m.map O } : BOState)
                = cs { t with X := t.X ++ m } := by simp [mapState]
            rw [hx, evaluateObjective_corr hp ho]
            cases evaluateObjective env obj { t with X := t.X ++ m } m with
            | mk v r =>
              cases r with
              | error e => rfl
              | ok _ => simp only [hp.clock]; rfl
  · rw [if_neg g, if_neg g]; rfl

theorem boLoop_corr (hunz : SameUnzipIn P E O env.sp env'.sp) (hp : CorrParts E O κ pc env env')
    {obj obj' : Nat → Vec → Py ℚ}
    (ho : ∀ k x, obj' k (O x) = obj k x) {eps eps' : ℚ} (hstop : SameStoppedIn P O eps eps')
    {ctx : Option Context}
    (hs : ∀ s, s.context = ctx → RowsIn P s.X → env'.suggest (cs s) none none
      = (env.suggest s none none).map (List.map O))
    (hs2 : ∀ s m, s.context = ctx → env.suggest s none none = .ok m → ∀ r ∈ m, P r)
    (maxIter maxTime : Limit) : ∀ (fuel : Nat) {s : BOState}, s.context = ctx →
      RowsIn P s.X →
    boLoop env' obj' maxIter maxTime eps' fuel (cs s)
      = (cs (boLoop env obj maxIter maxTime eps fuel s).1, (boLoop env obj maxIter maxTime eps fuel s).2) := by
  intro fuel
  induction fuel with
  | zero => intro s _ _; rfl
  | succ fuel ih =>
    intro s hc hl
    unfold boLoop
    rw [boRound_corr hunz hp ho hstop hs maxIter maxTime hc hl]
    cases hr : boRound env obj maxIter maxTime eps s with
    | stop t why => rfl
    | raised t e => rfl
    | next t =>
      obtain ⟨k1, k2⟩ := boRound_keeps hs2 hc hl.2 hr
      obtain ⟨m, ys, hrs⟩ := boRound_next hr
      exact ih k1 ⟨by rw [hrs.X]; simp [hl.1], k2⟩

theorem runStart_corr (hp : CorrParts E O κ pc env env') {obj obj' : Nat → Vec → Py ℚ}
    (ho : ∀ k x, obj' k (O x) = obj k x) {a a' : RunArgs}
    (ha : a'.context = κ a.context) (s : BOState) :
    runStart env' obj' a' (cs s) = (cs (runStart env obj a s).1, (runStart env obj a s).2) := by
  have hcf : ∀ w ys, env'.costFit ({ cs s with
      params := none, context := a'.context
      world := { w with calls := w.calls.map fun p => (O p.1, p.2) }, Y := some ys } : BOState)
      = env.costFit { s with params := none, context := a.context, world := w, Y := some ys } := by
    intro w ys
    rw [← hp.costFit, ha]
    rfl
  have he := evalFunc_corr ho env.clock s.X s.world
  unfold runStart
  simp only [mapState, ha, hp.clock, hp.lg] at hcf he ⊢
  cases hY : s.Y with
  | some Y => rfl
  | none =>
    simp only [he]
    cases evalFunc obj env.clock s.X s.world with
    | mk w r =>
      cases r with
      | error e => rfl
      | ok q =>
        obtain ⟨ys, ts⟩ := q
        simp only [hcf, costUpdate_corr]
        by_cases g : s.cost.kind = .evaluationTime
        · simp only [if_pos g]
          cases s.cost.update env.lg (env.costFit { s with
              params := none, context := a.context, world := w, Y := some ys }) s.X (.list ts) with
          | mk c r => cases r <;> rfl
        · simp only [if_neg g]
          rfl

theorem computeResults_corr (X : Mat) (Y : Vec) :
    computeResults (X.map O) Y
      = (computeResults X Y).map fun r => { r with xOpt := O r.xOpt } := by
  unfold computeResults
  cases argmin Y with
  | error e => rfl
  | ok i =>
    simp only [npGet, List.getElem?_map]
    cases X[i]? with
    | none => rfl
    | some x => simp only [Option.map_some]; cases Y[i]? <;> rfl

theorem runOptimization_corr_in (hunz : SameUnzipIn P E O env.sp env'.sp) (hp : CorrParts E O κ pc env env')
    {a a' : RunArgs} (hlim : a'.limits = a.limits)
    (hstop : SameStoppedIn P O a.eps a'.eps) (ha : a'.context = κ a.context)
    (hs : ∀ s, s.context = a.context → RowsIn P s.X → env'.suggest (cs s) none none
      = (env.suggest s none none).map (List.map O))
    (hs2 : ∀ s m, s.context = a.context → env.suggest s none none = .ok m → ∀ r ∈ m, P r)
    (fuel : Nat) {s : BOState} (hl : RowsIn P s.X) :
    runOptimization env' a' fuel (cs s)
      = (cs (runOptimization env a fuel s).1, (runOptimization env a fuel s).2) := by
  unfold runOptimization
  have hob := hp.obj
  cases g1 : env.obj with
  | none =>
    cases g2 : env'.obj with
    | none => rfl
    | some f => rw [g1, g2] at hob; exact hob.elim
  | some f =>
    cases g2 : env'.obj with
    | none => rw [g1, g2] at hob; exact hob.elim
    | some g =>
      rw [g1, g2] at hob
      simp only at hob ⊢
      rw [runStart_corr hp hob ha, hlim]
      have hst : (runStart env f a s).1.context = a.context ∧ (runStart env f a s).1.X = s.X := by
        unfold runStart
        simp only
        split
        · exact ⟨rfl, rfl⟩
        · split
          · exact ⟨rfl, rfl⟩
          · split_ifs
            · split <;> exact ⟨rfl, rfl⟩
            · exact ⟨rfl, rfl⟩
      cases hrs : runStart env f a s with
      | mk t r =>
        rw [hrs] at hst
        cases r with
        | error e => rfl
        | ok _ =>
          simp only
          rw [boLoop_corr hunz hp hob hstop hs hs2 _ _ fuel hst.1 (by rw [hst.2]; exact hl)]
          cases boLoop env f a.limits.1 a.limits.2 a.eps fuel t with
          | mk u r =>
            cases r with
            | raised e => rfl
            | running => rfl
            | done why =>
              simp only
              have hy : (cs u).Y = u.Y := rfl
              have hx : (cs u).X = u.X.map O := rfl
              rw [hy, hx]
              cases u.Y with
              | none => rfl
              | some Y =>
                simp only [computeResults_corr]
                cases computeResults u.X Y <;> rfl

theorem runOptimization_corr (hunz : SameUnzip n E O env.sp env'.sp) (hp : CorrParts E O κ pc env env')
    {a a' : RunArgs} (hlim : a'.limits = a.limits)
    (hstop : SameStopped n O a.eps a'.eps) (ha : a'.context = κ a.context)
    (hs : ∀ s, s.context = a.context → RowsOf n s.X → env'.suggest (cs s) none none
      = (env.suggest s none none).map (List.map O))
    (hs2 : ∀ s m, s.context = a.context → env.suggest s none none = .ok m → ∀ r ∈ m, r.length = n)
    (fuel : Nat) {s : BOState} (hl : RowsOf n s.X) :
    runOptimization env' a' fuel (cs s)
      = (cs (runOptimization env a fuel s).1, (runOptimization env a fuel s).2) :=
  runOptimization_corr_in (P := fun r => r.length = n) hunz hp hlim hstop ha hs hs2 fuel hl

end

end GPyOpt
