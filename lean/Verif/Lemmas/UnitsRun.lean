import Verif.Lemmas.UnitsBatch

/-! # Lemmas about other units of the variables: runs -/

namespace GPyOpt

open Spec Props

section

variable {us : List (ℚ × ℚ)} {sp sp' : Space} {pc : Vec → Vec} {env env' : BOEnv}

theorem evalFunc_conv {obj obj' : Nat → Vec → Py ℚ} (ho : ∀ k x, obj' k (convRow us x) = obj k x)
    (clock : Nat → ℚ) (m : Mat) : ∀ w : World,
    evalFunc obj' clock (m.map (convRow us)) { w with calls := w.calls.map fun p => (convRow us p.1, p.2) }
      = ({ (evalFunc obj clock m w).1 with
            calls := (evalFunc obj clock m w).1.calls.map fun p => (convRow us p.1, p.2) },
          (evalFunc obj clock m w).2) := by
  induction m with
  | nil => intro w; rfl
  | cons x m ih =>
    intro w
    simp only [List.map_cons, evalFunc, List.length_map, ho]
    cases obj w.calls.length x with
    | error e => simp
    | ok y =>
      have := ih { calls := w.calls ++ [(x, .ok y)], ticks := w.ticks + 2 }
      simp only [List.map_append, List.map_cons, List.map_nil] at this
      simp only [this]
      cases evalFunc obj clock m { calls := w.calls ++ [(x, .ok y)], ticks := w.ticks + 2 } with
      | mk w' r => cases r <;> rfl

theorem costUpdate_conv (lg : ℚ → ℚ) (fit : Py Unit) (c : CostModel) (m : Mat) (t : CostEvals) :
    ({ c with data := c.data.map fun d => (d.1.map (convRow us), d.2) } : CostModel).update lg fit
        (m.map (convRow us)) t
      = ({ (c.update lg fit m t).1 with
            data := (c.update lg fit m t).1.data.map fun d => (d.1.map (convRow us), d.2) },
          (c.update lg fit m t).2) := by
  obtain ⟨k, n, d⟩ := c
  cases k with
  | constant => rfl
  | userDefined => rfl
  | evaluationTime =>
    simp only [CostModel.update]
    cases columnValues (costColumn lg t) with
    | none =>
      by_cases h0 : n = 0
      · simp only [if_pos h0]
      · simp only [if_neg h0]
        cases d <;> rfl
    | some new =>
      simp only [List.length_map]
      by_cases h0 : n = 0
      · simp only [if_pos h0]
        by_cases h1 : m.length = new.length
        · simp only [if_pos h1, Option.map_some]
        · simp only [if_neg h1]
      · simp only [if_neg h0]
        cases d with
        | none => rfl
        | some d =>
          obtain ⟨X, Y⟩ := d
          simp only [Option.map_some, List.length_append, List.length_map]
          by_cases h1 : X.length + m.length = Y.length + new.length
          · simp only [if_pos h1, Option.map_some, List.map_append]
          · simp only [if_neg h1, Option.map_some]

local notation "cs" => convState us (colUnits us sp.kinds) sp pc

theorem saveParams_conv (hp : SameParts us sp pc env env') (s : BOState) :
    saveParams env' (cs s) = (cs (saveParams env s).1, (saveParams env s).2) := by
  unfold saveParams
  rw [hp.params]
  cases env.params s with
  | error e => rfl
  | ok p =>
    simp only [Except_map_ok]
    have : (cs s).params = s.params.map (List.map pc) := rfl
    rw [this]
    cases hs : s.params with
    | none => simp [convState]
    | some ps => simp [convState]

theorem updateModel_conv (h : OtherUnits us sp sp') (hp : SameParts us sp pc env env')
    (h1 : env.sp = sp) (h2 : env'.sp = sp') (s : BOState) :
    updateModel env' (cs s) = (cs (updateModel env s).1, (updateModel env s).2) := by
  unfold updateModel
  rw [hp.interval, h1, h2]
  have hn : (cs s).numAcq = s.numAcq := rfl
  have hx : (cs s).X = s.X.map (convRow us) := rfl
  have hy : (cs s).Y = s.Y := rfl
  rw [hn, hx, hy, h.unzipInputs]
  by_cases g0 : env.interval = 0
  · simp only [if_pos g0]
  · simp only [if_neg g0]
    by_cases g1 : (s.numAcq : Int) % env.interval = 0
    · simp only [if_pos g1]
      cases sp.unzipInputs s.X with
      | error e => rfl
      | ok Xm =>
        simp only [Except_map_ok]
        cases hY : s.Y with
        | none => rfl
        | some Y =>
          have hm : env'.modelY Y = env.modelY Y := by
            simp only [BOEnv.modelY, hp.normalizeY, hp.normalize]
          simp only [hm, hp.fit]
          cases env.fit s Xm (env.modelY Y) with
          | error e => simp [convState]
          | ok _ =>
            refine (congrArg (saveParams env') ?_).trans (saveParams_conv hp
              { s with Y := some Y, fits := s.fits ++ [{ acq := s.numAcq, X := Xm, Y := env.modelY Y }] })
            simp [convState]
    · simp only [if_neg g1]
      exact saveParams_conv hp s

theorem evaluateObjective_conv (hp : SameParts us sp pc env env') {obj obj' : Nat → Vec → Py ℚ}
    (ho : ∀ k x, obj' k (convRow us x) = obj k x) (s : BOState) (m : Mat) :
    evaluateObjective env' obj' (cs s) (m.map (convRow us))
      = (cs (evaluateObjective env obj s m).1, (evaluateObjective env obj s m).2) := by
  unfold evaluateObjective
  have he := evalFunc_conv ho env.clock m s.world
  have hw : (cs s).world = { s.world with calls := s.world.calls.map fun p => (convRow us p.1, p.2) } := rfl
  have hc : (cs s).cost = { s.cost with data := s.cost.data.map fun d => (d.1.map (convRow us), d.2) } := rfl
  have hy : (cs s).Y = s.Y := rfl
  rw [hp.clock, hw, he, hc, hy, hp.lg, hp.costFit]
  cases evalFunc obj env.clock m s.world with
  | mk w r =>
    cases r with
    | error e => rfl
    | ok q =>
      obtain ⟨ys, ts⟩ := q
      simp only [costUpdate_conv]
      cases s.cost.update env.lg (env.costFit s) m (.list ts) with
      | mk c r =>
        cases r with
        | error e => rfl
        | ok _ =>
          simp only
          cases s.Y <;> rfl

theorem lastTwoClose_conv {eps eps' : ℚ} (hs : SameStop us eps eps') {s : BOState}
    (hl : ∀ r ∈ s.X, r.length = us.length) : lastTwoClose eps' (cs s).X = lastTwoClose eps s.X :=
  hs s.X hl

/-- The state of a round in other units. -/
def convRound (f : BOState → BOState) : Round → Round
  | .next s => .next (f s)
  | .stop s why => .stop (f s) why
  | .raised s e => .raised (f s) e

theorem boRound_conv (h : OtherUnits us sp sp') (hp : SameParts us sp pc env env')
    (h1 : env.sp = sp) (h2 : env'.sp = sp') {obj obj' : Nat → Vec → Py ℚ}
    (ho : ∀ k x, obj' k (convRow us x) = obj k x) {eps eps' : ℚ} (hstop : SameStop us eps eps')
    {ctx : Option Context}
    (hs : ∀ s, s.context = ctx → env'.suggest (cs s) none none
      = (env.suggest s none none).map (List.map (convRow us)))
    (maxIter maxTime : Limit) {s : BOState} (hc : s.context = ctx)
    (hl : ∀ r ∈ s.X, r.length = us.length) :
    boRound env' obj' maxIter maxTime eps' (cs s) = convRound cs (boRound env obj maxIter maxTime eps s) := by
  unfold boRound
  have ht : (cs s).cumTime = s.cumTime := rfl
  rw [ht]
  by_cases g : maxTime.exceeds s.cumTime = true
  · rw [if_pos g, if_pos g, updateModel_conv h hp h1 h2]
    have hu : (updateModel env s).1.context = s.context ∧ (updateModel env s).1.X = s.X := by
      unfold updateModel saveParams
      split_ifs
      · exact ⟨rfl, rfl⟩
      · split
        · exact ⟨rfl, rfl⟩
        · split
          · exact ⟨rfl, rfl⟩
          · simp only
            split
            · exact ⟨rfl, rfl⟩
            · split
              · exact ⟨rfl, rfl⟩
              · split <;> exact ⟨rfl, rfl⟩
      · split
        · exact ⟨rfl, rfl⟩
        · split <;> exact ⟨rfl, rfl⟩
    cases hup : updateModel env s with
    | mk t r =>
      rw [hup] at hu
      simp only at hu
      cases r with
      | error e => cases e <;> rfl
      | ok _ =>
        simp only
        have hg : (¬ maxIter.exceeds ((cs t).numAcq : ℚ) = true ∨ lastTwoClose eps' (cs t).X = true)
            ↔ (¬ maxIter.exceeds (t.numAcq : ℚ) = true ∨ lastTwoClose eps t.X = true) := by
          rw [lastTwoClose_conv (s := t) hstop (by rw [hu.2]; exact hl)]
          exact Iff.rfl
        by_cases g2 : ¬ maxIter.exceeds (t.numAcq : ℚ) = true ∨ lastTwoClose eps t.X = true
        · rw [if_pos (hg.2 g2), if_pos g2]; rfl
        · rw [if_neg (fun q => g2 (hg.1 q)), if_neg g2, hs t (hu.1.trans hc)]
          cases env.suggest t none none with
          | error e => rfl
          | ok m =>
            simp only [Except_map_ok]
            have hx : ({ cs t with X := (cs t).X ++ m.map (convRow us) } : BOState)
                = cs { t with X := t.X ++ m } := by simp [convState]
            rw [hx, evaluateObjective_conv hp ho]
            cases evaluateObjective env obj { t with X := t.X ++ m } m with
            | mk v r =>
              cases r with
              | error e => rfl
              | ok _ => simp only [hp.clock]; rfl
  · rw [if_neg g, if_neg g]; rfl

theorem boRound_keeps {obj : Nat → Vec → Py ℚ} {maxIter maxTime : Limit} {eps : ℚ} {s t : BOState}
    {P : Vec → Prop} {ctx : Option Context}
    (hs : ∀ s m, s.context = ctx → env.suggest s none none = .ok m → ∀ r ∈ m, P r)
    (hc : s.context = ctx) (hl : ∀ r ∈ s.X, P r)
    (h : boRound env obj maxIter maxTime eps s = .next t) :
    t.context = ctx ∧ ∀ r ∈ t.X, P r := by
  have hu : (updateModel env s).1.context = s.context ∧ (updateModel env s).1.X = s.X := by
    unfold updateModel saveParams
    split_ifs
    · exact ⟨rfl, rfl⟩
    · split
      · exact ⟨rfl, rfl⟩
      · split
        · exact ⟨rfl, rfl⟩
        · simp only
          split
          · exact ⟨rfl, rfl⟩
          · split
            · exact ⟨rfl, rfl⟩
            · split <;> exact ⟨rfl, rfl⟩
    · split
      · exact ⟨rfl, rfl⟩
      · split <;> exact ⟨rfl, rfl⟩
  unfold boRound at h
  split_ifs at h
  cases hup : updateModel env s with
  | mk v r =>
    rw [hup] at h hu
    simp only at hu
    cases r with
    | error e => cases e <;> simp at h
    | ok _ =>
      simp only at h
      split_ifs at h
      cases hm : env.suggest v none none with
      | error e => simp [hm] at h
      | ok m =>
        simp only [hm] at h
        have he : ∀ w : BOState, (evaluateObjective env obj w m).1.context = w.context ∧
            (evaluateObjective env obj w m).1.X = w.X := by
          intro w
          unfold evaluateObjective
          split
          · exact ⟨rfl, rfl⟩
          · split
            · exact ⟨rfl, rfl⟩
            · split <;> exact ⟨rfl, rfl⟩
        have he := he { v with X := v.X ++ m }
        cases hev : evaluateObjective env obj { v with X := v.X ++ m } m with
        | mk w r =>
          rw [hev] at h he
          cases r with
          | error e => simp at h
          | ok _ =>
            simp only [Round.next.injEq] at h
            subst h
            refine ⟨he.1.trans (hu.1.trans hc), fun r hr => ?_⟩
            simp only at hr he
            rw [he.2, List.mem_append, hu.2] at hr
            rcases hr with hr | hr
            · exact hl r hr
            · exact hs v m (hu.1.trans hc) hm r hr

theorem boLoop_conv (h : OtherUnits us sp sp') (hp : SameParts us sp pc env env')
    (h1 : env.sp = sp) (h2 : env'.sp = sp') {obj obj' : Nat → Vec → Py ℚ}
    (ho : ∀ k x, obj' k (convRow us x) = obj k x) {eps eps' : ℚ} (hstop : SameStop us eps eps')
    {ctx : Option Context}
    (hs : ∀ s, s.context = ctx → env'.suggest (cs s) none none
      = (env.suggest s none none).map (List.map (convRow us)))
    (hs2 : ∀ s m, s.context = ctx → env.suggest s none none = .ok m → ∀ r ∈ m, r.length = us.length)
    (maxIter maxTime : Limit) : ∀ (fuel : Nat) {s : BOState}, s.context = ctx →
      (∀ r ∈ s.X, r.length = us.length) →
    boLoop env' obj' maxIter maxTime eps' fuel (cs s)
      = (cs (boLoop env obj maxIter maxTime eps fuel s).1, (boLoop env obj maxIter maxTime eps fuel s).2) := by
  intro fuel
  induction fuel with
  | zero => intro s _ _; rfl
  | succ fuel ih =>
    intro s hc hl
    unfold boLoop
    rw [boRound_conv h hp h1 h2 ho hstop hs maxIter maxTime hc hl]
    cases hr : boRound env obj maxIter maxTime eps s with
    | stop t why => rfl
    | raised t e => rfl
    | next t =>
      obtain ⟨k1, k2⟩ := boRound_keeps hs2 hc hl hr
      exact ih k1 k2

theorem runStart_conv (hp : SameParts us sp pc env env') {obj obj' : Nat → Vec → Py ℚ}
    (ho : ∀ k x, obj' k (convRow us x) = obj k x) {a a' : RunArgs}
    (ha : a'.context = a.context.map (convContext us sp)) (s : BOState) :
    runStart env' obj' a' (cs s) = (cs (runStart env obj a s).1, (runStart env obj a s).2) := by
  have hcf : ∀ w ys, env'.costFit ({ cs s with
      params := none, context := a'.context
      world := { w with calls := w.calls.map fun p => (convRow us p.1, p.2) }, Y := some ys } : BOState)
      = env.costFit { s with params := none, context := a.context, world := w, Y := some ys } := by
    intro w ys
    rw [← hp.costFit, ha]
    rfl
  have he := evalFunc_conv ho env.clock s.X s.world
  unfold runStart
  simp only [convState, ha, hp.clock, hp.lg] at hcf he ⊢
  cases hY : s.Y with
  | some Y => rfl
  | none =>
    simp only [he]
    cases evalFunc obj env.clock s.X s.world with
    | mk w r =>
      cases r with
      | error e => rfl
      | ok q =>
        obtain ⟨ys, ts⟩ := q
        simp only [hcf, costUpdate_conv]
        by_cases g : s.cost.kind = .evaluationTime
        · simp only [if_pos g]
          cases s.cost.update env.lg (env.costFit { s with
              params := none, context := a.context, world := w, Y := some ys }) s.X (.list ts) with
          | mk c r => cases r <;> rfl
        · simp only [if_neg g]
          rfl

theorem computeResults_conv (X : Mat) (Y : Vec) :
    computeResults (X.map (convRow us)) Y
      = (computeResults X Y).map fun r => { r with xOpt := convRow us r.xOpt } := by
  unfold computeResults
  cases argmin Y with
  | error e => rfl
  | ok i =>
    simp only [npGet, List.getElem?_map]
    cases X[i]? with
    | none => rfl
    | some x => simp only [Option.map_some]; cases Y[i]? <;> rfl

theorem runOptimization_conv (h : OtherUnits us sp sp') (hp : SameParts us sp pc env env')
    (h1 : env.sp = sp) (h2 : env'.sp = sp') {a a' : RunArgs} (hlim : a'.limits = a.limits)
    (hstop : SameStop us a.eps a'.eps) (ha : a'.context = a.context.map (convContext us sp))
    (hs : ∀ s, s.context = a.context → env'.suggest (cs s) none none
      = (env.suggest s none none).map (List.map (convRow us)))
    (hs2 : ∀ s m, s.context = a.context → env.suggest s none none = .ok m → ∀ r ∈ m, r.length = us.length)
    (fuel : Nat) {s : BOState} (hl : ∀ r ∈ s.X, r.length = us.length) :
    runOptimization env' a' fuel (cs s)
      = (cs (runOptimization env a fuel s).1, (runOptimization env a fuel s).2) := by
  unfold runOptimization
  have hob := hp.obj
  cases g1 : env.obj with
  | none =>
    cases g2 : env'.obj with
    | none => rfl
    | some f => rw [g1, g2] at hob; exact hob.elim
  | some f =>
    cases g2 : env'.obj with
    | none => rw [g1, g2] at hob; exact hob.elim
    | some g =>
      rw [g1, g2] at hob
      simp only at hob ⊢
      rw [runStart_conv hp hob ha, hlim]
      have hst : (runStart env f a s).1.context = a.context ∧ (runStart env f a s).1.X = s.X := by
        unfold runStart
        simp only
        split
        · exact ⟨rfl, rfl⟩
        · split
          · exact ⟨rfl, rfl⟩
          · split_ifs
            · split <;> exact ⟨rfl, rfl⟩
            · exact ⟨rfl, rfl⟩
      cases hrs : runStart env f a s with
      | mk t r =>
        rw [hrs] at hst
        cases r with
        | error e => rfl
        | ok _ =>
          simp only
          rw [boLoop_conv h hp h1 h2 hob hstop hs hs2 _ _ fuel hst.1 (by rw [hst.2]; exact hl)]
          cases boLoop env f a.limits.1 a.limits.2 a.eps fuel t with
          | mk u r =>
            cases r with
            | raised e => rfl
            | running => rfl
            | done why =>
              simp only
              have hy : (cs u).Y = u.Y := rfl
              have hx : (cs u).X = u.X.map (convRow us) := rfl
              rw [hy, hx]
              cases u.Y with
              | none => rfl
              | some Y =>
                simp only [computeResults_conv]
                cases computeResults u.X Y <;> rfl

end

end GPyOpt
