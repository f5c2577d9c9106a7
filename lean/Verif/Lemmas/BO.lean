import Verif.Model.BO
import Verif.Lemmas.Py
import Mathlib.Tactic.Linarith
import Mathlib.Tactic.Push

/-! # Lemmas about the optimization loop -/

namespace GPyOpt

/-- The record of calls agrees with the objective. -/
def Logged (obj : Nat → Vec → Py ℚ) (w : World) : Prop :=
  ∀ j x r, w.calls[j]? = some (x, r) → obj j x = r

theorem logged_append {obj : Nat → Vec → Py ℚ} {w : World} {x : Vec} {r : Py ℚ} {t : Nat}
    (h : Logged obj w) (hr : obj w.calls.length x = r) :
    Logged obj { calls := w.calls ++ [(x, r)], ticks := t } := by
  intro j x' r' hj
  simp only at hj
  rcases lt_trichotomy j w.calls.length with hl | hl | hl
  · rw [List.getElem?_append_left hl] at hj
    exact h j x' r' hj
  · subst hl
    simp at hj
    obtain ⟨rfl, rfl⟩ := hj
    exact hr
  · rw [List.getElem?_eq_none (by simp; omega)] at hj
    cases hj

/-- the evaluated rows of the call record of a successful evaluation -/
def callsOf (xs : Mat) (ys : Vec) : List (Vec × Py ℚ) := List.zip xs (ys.map .ok)

theorem evalFunc_ok {obj : Nat → Vec → Py ℚ} {clock : Nat → ℚ} {xs : Mat} {w w' : World}
    {ys ts : Vec} (h : evalFunc obj clock xs w = (w', .ok (ys, ts))) :
    ys.length = xs.length ∧ ts.length = xs.length ∧ w'.calls = w.calls ++ callsOf xs ys := by
  induction xs generalizing w ys ts with
  | nil =>
    simp only [evalFunc, Prod.mk.injEq, Except.ok.injEq] at h
    obtain ⟨rfl, rfl, rfl⟩ := h
    simp [callsOf]
  | cons x xs ih =>
    unfold evalFunc at h
    cases ho : obj w.calls.length x with
    | error e => simp [ho] at h
    | ok y =>
      simp only [ho] at h
      rcases hr : evalFunc obj clock xs { calls := w.calls ++ [(x, .ok y)], ticks := w.ticks + 2 }
        with ⟨w1, r⟩
      rw [hr] at h
      cases r with
      | error e => simp at h
      | ok p =>
        obtain ⟨ys1, ts1⟩ := p
        simp only [Prod.mk.injEq, Except.ok.injEq] at h
        obtain ⟨rfl, rfl, rfl⟩ := h
        obtain ⟨h1, h2, h3⟩ := ih hr
        refine ⟨by simp [h1], by simp [h2], ?_⟩
        rw [h3]
        simp [callsOf]

theorem evalFunc_logged {obj : Nat → Vec → Py ℚ} {clock : Nat → ℚ} {xs : Mat} {w w' : World}
    {r : Py (Vec × Vec)} (hl : Logged obj w) (h : evalFunc obj clock xs w = (w', r)) :
    Logged obj w' ∧ w.calls <+: w'.calls := by
  induction xs generalizing w w' r with
  | nil =>
    simp only [evalFunc, Prod.mk.injEq] at h
    obtain ⟨rfl, -⟩ := h
    exact ⟨hl, List.prefix_rfl⟩
  | cons x xs ih =>
    unfold evalFunc at h
    cases ho : obj w.calls.length x with
    | error e =>
      simp only [ho, Prod.mk.injEq] at h
      obtain ⟨rfl, -⟩ := h
      exact ⟨logged_append hl ho, List.prefix_append _ _⟩
    | ok y =>
      simp only [ho] at h
      rcases hr : evalFunc obj clock xs { calls := w.calls ++ [(x, .ok y)], ticks := w.ticks + 2 }
        with ⟨w1, r1⟩
      rw [hr] at h
      obtain ⟨h1, h2⟩ := ih (logged_append hl ho) hr
      have : w' = w1 := by
        cases r1 with
        | error e => simp only [Prod.mk.injEq] at h; exact h.1.symm
        | ok p => simp only [Prod.mk.injEq] at h; exact h.1.symm
      subst this
      exact ⟨h1, (List.prefix_append _ _).trans h2⟩

/-- a row at which the objective raises is the last one of the record -/
theorem evalFunc_error {obj : Nat → Vec → Py ℚ} {clock : Nat → ℚ} {xs : Mat} {w w' : World}
    {e : Err} (h : evalFunc obj clock xs w = (w', .error e)) :
    ∃ (i : Nat) (x : Vec) (ys : Vec), xs[i]? = some x ∧ ys.length = i ∧
      w'.calls = w.calls ++ callsOf (xs.take i) ys ++ [(x, .error e)] := by
  induction xs generalizing w with
  | nil => simp [evalFunc] at h
  | cons x xs ih =>
    unfold evalFunc at h
    cases ho : obj w.calls.length x with
    | error e' =>
      simp only [ho, Prod.mk.injEq, Except.error.injEq] at h
      obtain ⟨rfl, rfl⟩ := h
      exact ⟨0, x, [], rfl, rfl, by simp [callsOf]⟩
    | ok y =>
      simp only [ho] at h
      rcases hr : evalFunc obj clock xs { calls := w.calls ++ [(x, .ok y)], ticks := w.ticks + 2 }
        with ⟨w1, r1⟩
      rw [hr] at h
      cases r1 with
      | ok p => simp at h
      | error e' =>
        simp only [Prod.mk.injEq, Except.error.injEq] at h
        obtain ⟨rfl, rfl⟩ := h
        obtain ⟨i, x', ys, h1, h2, h3⟩ := ih hr
        refine ⟨i + 1, x', y :: ys, by simpa using h1, by simp [h2], ?_⟩
        rw [h3]
        simp [callsOf]

/-- the fits recorded by one `_update_model` -/
def newFits (env : BOEnv) (s : BOState) : List Fit :=
  if (s.numAcq : Int) % env.interval = 0 then
    match env.sp.unzipInputs s.X, s.Y with
    | .ok Xm, some Y =>
      [{ acq := s.numAcq, X := Xm, Y := env.modelY Y }]
    | _, _ => []
  else []

theorem saveParams_ok {env : BOEnv} {s s1 : BOState} (h : saveParams env s = (s1, .ok ())) :
    ∃ p, env.params s = .ok p ∧ s1 = { s with params := some (s.params.getD [] ++ [p]) } := by
  unfold saveParams at h
  cases hp : env.params s with
  | error e => simp [hp] at h
  | ok p =>
    simp only [hp] at h
    refine ⟨p, rfl, ?_⟩
    cases hq : s.params with
    | none => simp only [hq, Prod.mk.injEq] at h; simp [← h.1]
    | some ps => simp only [hq, Prod.mk.injEq] at h; simp [← h.1]

theorem updateModel_ok {env : BOEnv} {s s1 : BOState} (h : updateModel env s = (s1, .ok ())) :
    ∃ p, s1 = { s with params := some (s.params.getD [] ++ [p]), fits := s.fits ++ newFits env s } := by
  unfold updateModel at h
  split_ifs at h with h0 h1
  · simp at h
  · cases hx : env.sp.unzipInputs s.X with
    | error e => simp [hx] at h
    | ok Xm =>
      cases hY : s.Y with
      | none => simp [hx, hY] at h
      | some Y =>
        simp only [hx, hY] at h
        cases hf : env.fit s Xm (env.modelY Y) with
        | error e => simp [hf] at h
        | ok u =>
          simp only [hf] at h
          obtain ⟨p, -, rfl⟩ := saveParams_ok h
          exact ⟨p, by simp [newFits, h1, hx, hY]⟩
  · obtain ⟨p, -, rfl⟩ := saveParams_ok h
    exact ⟨p, by simp [newFits, h1]⟩

/-- the parameters saved are those of the model after the fit -/
theorem updateModel_saved {env : BOEnv} {s s1 : BOState} (h : updateModel env s = (s1, .ok ())) :
    ∃ p, env.params { s with fits := s.fits ++ newFits env s } = .ok p ∧
      s1.params = some (s.params.getD [] ++ [p]) := by
  unfold updateModel at h
  split_ifs at h with h0 h1
  · simp at h
  · cases hx : env.sp.unzipInputs s.X with
    | error e => simp [hx] at h
    | ok Xm =>
      cases hY : s.Y with
      | none => simp [hx, hY] at h
      | some Y =>
        simp only [hx, hY] at h
        cases hf : env.fit s Xm (env.modelY Y) with
        | error e => simp [hf] at h
        | ok u =>
          simp only [hf] at h
          obtain ⟨p, hp, rfl⟩ := saveParams_ok h
          refine ⟨p, ?_, rfl⟩
          simpa [newFits, h1, hx, hY] using hp
  · obtain ⟨p, hp, rfl⟩ := saveParams_ok h
    exact ⟨p, by simpa [newFits, h1] using hp, rfl⟩

/-- whatever the outcome, `_update_model` changes the records only -/
theorem updateModel_frame {env : BOEnv} {s s1 : BOState} {r : Py Unit}
    (h : updateModel env s = (s1, r)) :
    ∃ ps fs, s1 = { s with params := ps, fits := s.fits ++ fs } := by
  have hsave : ∀ {s s1 : BOState} {r}, saveParams env s = (s1, r) →
      ∃ ps, s1 = { s with params := ps } := by
    intro s s1 r h
    unfold saveParams at h
    cases hp : env.params s with
    | error e => simp only [hp, Prod.mk.injEq] at h; exact ⟨s.params, h.1.symm⟩
    | ok p =>
      simp only [hp] at h
      cases hq : s.params with
      | none => simp only [hq, Prod.mk.injEq] at h; exact ⟨_, h.1.symm⟩
      | some ps => simp only [hq, Prod.mk.injEq] at h; exact ⟨_, h.1.symm⟩
  unfold updateModel at h
  split_ifs at h with h0 h1
  · simp only [Prod.mk.injEq] at h; exact ⟨s.params, [], by simp [← h.1]⟩
  · cases hx : env.sp.unzipInputs s.X with
    | error e => simp only [hx, Prod.mk.injEq] at h; exact ⟨s.params, [], by simp [← h.1]⟩
    | ok Xm =>
      cases hY : s.Y with
      | none => simp only [hx, hY, Prod.mk.injEq] at h; exact ⟨s.params, [], by simp [← h.1, ← hY]⟩
      | some Y =>
        simp only [hx, hY] at h
        cases hf : env.fit s Xm (env.modelY Y) with
        | error e =>
          simp only [hf, Prod.mk.injEq] at h
          exact ⟨s.params, _, by rw [← h.1, ← hY]⟩
        | ok u =>
          simp only [hf] at h
          obtain ⟨ps, rfl⟩ := hsave h
          exact ⟨ps, _, by rw [← hY]⟩
  · obtain ⟨ps, rfl⟩ := hsave h
    exact ⟨ps, [], by simp⟩

/-- What a completed evaluation of the batch `m` with outputs `ys` changes. -/
theorem evaluateObjective_ok {env : BOEnv} {obj : Nat → Vec → Py ℚ} {s s' : BOState} {m : Mat}
    (h : evaluateObjective env obj s m = (s', .ok ())) :
    ∃ Y ys ts w c, s.Y = some Y ∧ ys.length = m.length ∧
      evalFunc obj env.clock m s.world = (w, .ok (ys, ts)) ∧
      s.cost.update env.lg (env.costFit s) m (.list ts) = (c, .ok ()) ∧
      w.calls = s.world.calls ++ callsOf m ys ∧
      s' = { s with world := w, cost := c, Y := some (Y ++ ys) } := by
  unfold evaluateObjective at h
  rcases he : evalFunc obj env.clock m s.world with ⟨w, r⟩
  rw [he] at h
  cases r with
  | error e => simp at h
  | ok p =>
    obtain ⟨ys, ts⟩ := p
    simp only at h
    rcases hc : s.cost.update env.lg (env.costFit s) m (.list ts) with ⟨c, r⟩
    rw [hc] at h
    cases r with
    | error e => simp at h
    | ok u =>
      cases hY : s.Y with
      | none => simp [hY] at h
      | some Y =>
        simp only [hY, Prod.mk.injEq, and_true] at h
        exact ⟨Y, ys, ts, w, c, rfl, (evalFunc_ok he).1, rfl, hc, (evalFunc_ok he).2.2, h.symm⟩

/-- whatever the outcome, evaluating changes the world, the cost model and (on success) `Y` -/
theorem evaluateObjective_frame {env : BOEnv} {obj : Nat → Vec → Py ℚ} {s s' : BOState} {m : Mat}
    {r : Py Unit} (h : evaluateObjective env obj s m = (s', r)) :
    s'.X = s.X ∧ (s'.Y = s.Y ∨ ∃ Y ys, s.Y = some Y ∧ s'.Y = some (Y ++ ys)) ∧
    (Logged obj s.world → Logged obj s'.world) ∧
    (∀ e, r = .error e → s'.Y = s.Y) := by
  unfold evaluateObjective at h
  rcases he : evalFunc obj env.clock m s.world with ⟨w, r'⟩
  rw [he] at h
  have hl : Logged obj s.world → Logged obj w := fun hl => (evalFunc_logged hl he).1
  cases r' with
  | error e =>
    simp only [Prod.mk.injEq] at h
    obtain ⟨rfl, rfl⟩ := h
    exact ⟨rfl, Or.inl rfl, hl, fun _ _ => rfl⟩
  | ok p =>
    obtain ⟨ys, ts⟩ := p
    simp only at h
    rcases hc : s.cost.update env.lg (env.costFit s) m (.list ts) with ⟨c, r'⟩
    rw [hc] at h
    cases r' with
    | error e =>
      simp only [Prod.mk.injEq] at h
      obtain ⟨rfl, rfl⟩ := h
      exact ⟨rfl, Or.inl rfl, hl, fun _ _ => rfl⟩
    | ok u =>
      cases hY : s.Y with
      | none =>
        simp only [hY, Prod.mk.injEq] at h
        obtain ⟨rfl, rfl⟩ := h
        exact ⟨rfl, Or.inl rfl, hl, fun _ _ => rfl⟩
      | some Y =>
        simp only [hY, Prod.mk.injEq] at h
        obtain ⟨rfl, rfl⟩ := h
        exact ⟨rfl, Or.inr ⟨Y, ys, rfl, rfl⟩, hl, fun e he => by simp at he⟩

/-- One completed round: batch `m`, outputs `ys`. -/
structure RoundSpec (env : BOEnv) (obj : Nat → Vec → Py ℚ) (maxIter maxTime : Limit) (eps : ℚ)
    (s : BOState) (m : Mat) (ys : Vec) (s' : BOState) : Prop where
  time : maxTime.exceeds s.cumTime = true
  fitted : (updateModel env s).2 = .ok ()
  budget : maxIter.exceeds (s.numAcq : ℚ) = true
  apart : lastTwoClose eps s.X = false
  suggested : env.suggest (updateModel env s).1 none none = .ok m
  len : ys.length = m.length
  X : s'.X = s.X ++ m
  Y : ∃ Y, s.Y = some Y ∧ s'.Y = some (Y ++ ys)
  calls : s'.world.calls = s.world.calls ++ callsOf m ys
  logged : Logged obj s.world → Logged obj s'.world
  numAcq : s'.numAcq = s.numAcq + 1
  context : s'.context = s.context
  params : ∃ p, s'.params = some (s.params.getD [] ++ [p])
  saved : s'.params = (updateModel env s).1.params
  fits : s'.fits = s.fits ++ newFits env s
  timeZero : s'.timeZero = s.timeZero
  cumTime : ∃ t, s'.world.ticks = t + 1 ∧ s.world.ticks ≤ t ∧ s'.cumTime = env.clock t - s.timeZero
  results : s'.results = s.results
  cost : ∃ ts c', s.cost.update env.lg c' m (.list ts) = (s'.cost, .ok ())

theorem evalFunc_ticks {obj : Nat → Vec → Py ℚ} {clock : Nat → ℚ} {xs : Mat} {w w' : World}
    {r : Py (Vec × Vec)} (h : evalFunc obj clock xs w = (w', r)) : w.ticks ≤ w'.ticks := by
  induction xs generalizing w w' r with
  | nil => simp only [evalFunc, Prod.mk.injEq] at h; rw [h.1]
  | cons x xs ih =>
    unfold evalFunc at h
    cases ho : obj w.calls.length x with
    | error e => simp only [ho, Prod.mk.injEq] at h; rw [← h.1]; simp
    | ok y =>
      simp only [ho] at h
      rcases hr : evalFunc obj clock xs { calls := w.calls ++ [(x, .ok y)], ticks := w.ticks + 2 }
        with ⟨w1, r1⟩
      rw [hr] at h
      have := ih hr
      simp only at this
      cases r1 with
      | error e => simp only [Prod.mk.injEq] at h; rw [← h.1]; omega
      | ok p => simp only [Prod.mk.injEq] at h; rw [← h.1]; omega

theorem boRound_next {env : BOEnv} {obj : Nat → Vec → Py ℚ} {mi mt : Limit} {eps : ℚ}
    {s s' : BOState} (h : boRound env obj mi mt eps s = .next s') :
    ∃ m ys, RoundSpec env obj mi mt eps s m ys s' := by
  unfold boRound at h
  split_ifs at h with ht
  rcases hu : updateModel env s with ⟨s1, r⟩
  rw [hu] at h
  cases r with
  | error e => cases e <;> simp at h
  | ok u =>
    obtain ⟨p, hs1⟩ := updateModel_ok hu
    simp only at h
    split_ifs at h with hstop
    push Not at hstop
    obtain ⟨hb, hcl⟩ := hstop
    have hcl' : lastTwoClose eps s1.X = false := by simpa using hcl
    cases hsu : env.suggest s1 none none with
    | error e => simp [hsu] at h
    | ok m =>
      simp only [hsu] at h
      rcases he : evaluateObjective env obj { s1 with X := s1.X ++ m } m with ⟨s2, r⟩
      rw [he] at h
      cases r with
      | error e => simp at h
      | ok u =>
        simp only [Round.next.injEq] at h
        obtain ⟨Y, ys, ts, w, c, hY, hlen, hev, hcu, hcalls, hs2⟩ := evaluateObjective_ok he
        refine ⟨m, ys, ?_⟩
        have htick := evalFunc_ticks hev
        subst hs2
        subst hs1
        subst h
        exact {
          time := ht
          fitted := by rw [hu]
          budget := hb
          apart := hcl'
          suggested := by rw [hu]; exact hsu
          len := hlen
          X := rfl
          Y := ⟨Y, hY, rfl⟩
          calls := hcalls
          logged := fun hl => (evalFunc_logged hl hev).1
          numAcq := rfl
          context := rfl
          params := ⟨p, rfl⟩
          saved := by rw [hu]
          fits := rfl
          timeZero := rfl
          cumTime := ⟨w.ticks, rfl, htick, rfl⟩
          results := rfl
          cost := ⟨ts, _, hcu⟩ }

/-- A sequence of completed rounds with their batches and outputs. -/
inductive Trace (env : BOEnv) (obj : Nat → Vec → Py ℚ) (maxIter maxTime : Limit) (eps : ℚ) :
    BOState → List (Mat × Vec) → BOState → Prop
  | nil (s : BOState) : Trace env obj maxIter maxTime eps s [] s
  | cons {s s1 s' : BOState} {m : Mat} {ys : Vec} {bs : List (Mat × Vec)} :
      boRound env obj maxIter maxTime eps s = .next s1 →
      RoundSpec env obj maxIter maxTime eps s m ys s1 →
      Trace env obj maxIter maxTime eps s1 bs s' →
      Trace env obj maxIter maxTime eps s ((m, ys) :: bs) s'

theorem boLoop_trace {env : BOEnv} {obj : Nat → Vec → Py ℚ} {mi mt : Limit} {eps : ℚ} {fuel : Nat}
    {s s' : BOState} {r : RunResult} (h : boLoop env obj mi mt eps fuel s = (s', r)) :
    ∃ bs sk, Trace env obj mi mt eps s bs sk ∧ bs.length ≤ fuel ∧
      match r with
      | .done why => boRound env obj mi mt eps sk = .stop s' why
      | .raised e => boRound env obj mi mt eps sk = .raised s' e
      | .running => s' = sk ∧ bs.length = fuel := by
  induction fuel generalizing s with
  | zero =>
    simp only [boLoop, Prod.mk.injEq] at h
    obtain ⟨rfl, rfl⟩ := h
    exact ⟨[], _, .nil _, by simp, rfl, rfl⟩
  | succ fuel ih =>
    unfold boLoop at h
    cases hr : boRound env obj mi mt eps s with
    | stop s1 why =>
      simp only [hr, Prod.mk.injEq] at h
      obtain ⟨rfl, rfl⟩ := h
      exact ⟨[], s, .nil _, by simp, hr⟩
    | raised s1 e =>
      simp only [hr, Prod.mk.injEq] at h
      obtain ⟨rfl, rfl⟩ := h
      exact ⟨[], s, .nil _, by simp, hr⟩
    | next s1 =>
      simp only [hr] at h
      obtain ⟨m, ys, hspec⟩ := boRound_next hr
      obtain ⟨bs, sk, h1, h2, h3⟩ := ih h
      refine ⟨(m, ys) :: bs, sk, .cons hr hspec h1, by simp [h2], ?_⟩
      cases r with
      | done why => exact h3
      | raised e => exact h3
      | running => exact ⟨h3.1, by simp [h3.2]⟩

variable {env : BOEnv} {obj : Nat → Vec → Py ℚ} {mi mt : Limit} {eps : ℚ}

/-- the rows of a list of batches -/
def batchRows (bs : List (Mat × Vec)) : Mat := (bs.map Prod.fst).flatten

/-- the outputs of a list of batches -/
def batchVals (bs : List (Mat × Vec)) : Vec := (bs.map Prod.snd).flatten

theorem callsOf_append {xs xs' : Mat} {ys ys' : Vec} (h : ys.length = xs.length) :
    callsOf (xs ++ xs') (ys ++ ys') = callsOf xs ys ++ callsOf xs' ys' := by
  unfold callsOf
  rw [List.map_append, List.zip_append (by simp [h])]

theorem Trace.data {s s' : BOState} {bs : List (Mat × Vec)} (h : Trace env obj mi mt eps s bs s')
    {Y : Vec} (hY : s.Y = some Y) :
    s'.X = s.X ++ batchRows bs ∧ s'.Y = some (Y ++ batchVals bs) ∧
    s'.world.calls = s.world.calls ++ callsOf (batchRows bs) (batchVals bs) ∧
    (batchVals bs).length = (batchRows bs).length ∧
    (Logged obj s.world → Logged obj s'.world) ∧
    s'.numAcq = s.numAcq + bs.length ∧ s'.context = s.context ∧ s'.timeZero = s.timeZero ∧
    s'.results = s.results := by
  induction h generalizing Y with
  | nil s => simp [batchRows, batchVals, callsOf, hY]
  | @cons s s1 s' m ys bs hr hs ht ih =>
    obtain ⟨Y0, hY0, hY1⟩ := hs.Y
    rw [hY] at hY0
    injection hY0 with hY0
    subst hY0
    obtain ⟨h1, h2, h3, h4, h5, h6, h7, h8, h9⟩ := ih hY1
    have hb1 : batchRows ((m, ys) :: bs) = m ++ batchRows bs := by simp [batchRows]
    have hb2 : batchVals ((m, ys) :: bs) = ys ++ batchVals bs := by simp [batchVals]
    refine ⟨?_, ?_, ?_, ?_, ?_, ?_, ?_, ?_, ?_⟩
    · rw [h1, hs.X, hb1, List.append_assoc]
    · rw [h2, hb2, List.append_assoc]
    · rw [h3, hs.calls, hb1, hb2, callsOf_append hs.len, List.append_assoc]
    · rw [hb1, hb2, List.length_append, List.length_append, h4, hs.len]
    · exact fun hl => h5 (hs.logged hl)
    · rw [h6, hs.numAcq, List.length_cons]; omega
    · rw [h7, hs.context]
    · rw [h8, hs.timeZero]
    · rw [h9, hs.results]

/-- the state before every round of a trace -/
theorem Trace.split {s s' : BOState} {bs : List (Mat × Vec)} (h : Trace env obj mi mt eps s bs s')
    {i : Nat} (hi : i < bs.length) :
    ∃ si si', Trace env obj mi mt eps s (bs.take i) si ∧
      RoundSpec env obj mi mt eps si (bs[i]).1 (bs[i]).2 si' ∧
      boRound env obj mi mt eps si = .next si' ∧
      Trace env obj mi mt eps s (bs.take (i + 1)) si' := by
  induction h generalizing i with
  | nil s => simp at hi
  | @cons s s1 s' m ys bs hr hs ht ih =>
    cases i with
    | zero =>
      refine ⟨s, s1, .nil s, hs, hr, ?_⟩
      simpa using Trace.cons hr hs (.nil s1)
    | succ i =>
      obtain ⟨si, si', h1, h2, h3, h4⟩ := ih (by simpa using hi)
      refine ⟨si, si', ?_, by simpa using h2, h3, ?_⟩
      · simpa using Trace.cons hr hs h1
      · simpa using Trace.cons hr hs h4

theorem Trace.det {s s1 s2 : BOState} {bs : List (Mat × Vec)}
    (h1 : Trace env obj mi mt eps s bs s1) (h2 : Trace env obj mi mt eps s bs s2) : s1 = s2 := by
  induction h1 with
  | nil s => cases h2; rfl
  | cons hr hs ht ih =>
    cases h2 with
    | cons hr' hs' ht' =>
      rw [hr] at hr'
      injection hr' with hr'
      subst hr'
      exact ih ht'

theorem Trace.budget {s s' : BOState} {bs : List (Mat × Vec)} {n : Nat}
    (h : Trace env obj (.fin n) mt eps s bs s') (hs : s.numAcq ≤ n) : s.numAcq + bs.length ≤ n := by
  induction h with
  | nil s => simpa using hs
  | @cons s s1 s' m ys bs hr hsp ht ih =>
    have hb := hsp.budget
    simp only [Limit.exceeds, decide_eq_true_eq, Nat.cast_lt] at hb
    have hn := hsp.numAcq
    have := ih (by omega)
    simp only [List.length_cons]
    omega

end GPyOpt

namespace GPyOpt

variable {env : BOEnv} {obj : Nat → Vec → Py ℚ} {mi mt : Limit} {eps : ℚ}

/-- The round at which the loop stops: state and reason. -/
structure StopSpec (env : BOEnv) (maxIter maxTime : Limit) (eps : ℚ) (s : BOState) (why : Stop)
    (s' : BOState) : Prop where
  frame : ∃ ps fs, s' = { s with params := ps, fits := s.fits ++ fs }
  time : why = .time ↔ maxTime.exceeds s.cumTime = false
  timeState : why = .time → s' = s
  fit : why = .fit ↔ maxTime.exceeds s.cumTime = true ∧ (updateModel env s).2 = .error .linAlg
  limit : why = .limit ↔ maxTime.exceeds s.cumTime = true ∧ (updateModel env s).2 = .ok () ∧
    (maxIter.exceeds (s.numAcq : ℚ) = false ∨ lastTwoClose eps s.X = true)
  update : why ≠ .time → s' = (updateModel env s).1

theorem boRound_stop {s s' : BOState} {why : Stop}
    (h : boRound env obj mi mt eps s = .stop s' why) : StopSpec env mi mt eps s why s' := by
  unfold boRound at h
  split_ifs at h with ht
  · rcases hu : updateModel env s with ⟨s1, r⟩
    rw [hu] at h
    obtain ⟨ps, fs, hfr⟩ := updateModel_frame hu
    cases r with
    | error e =>
      have : e = .linAlg ∧ s' = s1 ∧ why = .fit := by
        cases e <;> first | (simp at h; done) | (simp at h; simp [h])
      obtain ⟨rfl, rfl, rfl⟩ := this
      exact { frame := ⟨ps, fs, hfr⟩, time := by simp [ht], timeState := by simp,
              fit := by simp [ht, hu], limit := by simp [hu], update := by simp [hu] }
    | ok u =>
      simp only at h
      split_ifs at h with hstop
      · simp only [Round.stop.injEq] at h
        obtain ⟨rfl, rfl⟩ := h
        refine { frame := ⟨ps, fs, hfr⟩, time := by simp [ht], timeState := by simp,
                 fit := by simp [hu], limit := ?_, update := by simp [hu] }
        simp only [ht, hu, true_and, true_iff]
        rw [hfr] at hstop
        simpa using hstop
      · cases hsu : env.suggest s1 none none with
        | error e => simp [hsu] at h
        | ok m =>
          simp only [hsu] at h
          rcases he : evaluateObjective env obj { s1 with X := s1.X ++ m } m with ⟨s2, r⟩
          rw [he] at h
          cases r <;> simp at h
  · simp only [Round.stop.injEq] at h
    obtain ⟨rfl, rfl⟩ := h
    exact { frame := ⟨s.params, [], by simp⟩, time := by simpa using ht, timeState := by simp,
            fit := by simp [ht], limit := by simp [ht], update := by simp }

/-- What the start of a run changes. -/
structure StartSpec (env : BOEnv) (obj : Nat → Vec → Py ℚ) (a : RunArgs) (s s0 : BOState) : Prop where
  X : s0.X = s.X
  Y : ∃ Y new, s0.Y = some Y ∧ s0.world.calls = s.world.calls ++ new ∧
    ((s.Y = some Y ∧ new = []) ∨ (s.Y = none ∧ new = callsOf s.X Y ∧ Y.length = s.X.length))
  logged : Logged obj s.world → Logged obj s0.world
  numAcq : s0.numAcq = 0
  cumTime : s0.cumTime = 0
  context : s0.context = a.context
  params : s0.params = none
  fits : s0.fits = s.fits
  timeZero : ∃ t, s0.world.ticks = t + 1 ∧ s0.timeZero = env.clock t
  cost : s.Y ≠ none → s0.cost = s.cost

theorem runStart_ok {a : RunArgs} {s s0 : BOState} (h : runStart env obj a s = (s0, .ok ())) :
    StartSpec env obj a s s0 := by
  unfold runStart at h
  simp only at h
  cases hY : s.Y with
  | some Y =>
    simp only [hY, Prod.mk.injEq, and_true] at h
    subst h
    exact { X := rfl, Y := ⟨Y, [], rfl, by simp, Or.inl ⟨hY, rfl⟩⟩, logged := id, numAcq := rfl,
            cumTime := rfl, context := rfl, params := rfl, fits := rfl, timeZero := ⟨_, rfl, rfl⟩,
            cost := fun _ => rfl }
  | none =>
    simp only [hY] at h
    rcases he : evalFunc obj env.clock s.X s.world with ⟨w, r⟩
    rw [he] at h
    cases r with
    | error e => simp at h
    | ok p =>
      obtain ⟨ys, ts⟩ := p
      obtain ⟨h1, h2, h3⟩ := evalFunc_ok he
      have hl : Logged obj s.world → Logged obj w := fun hl => (evalFunc_logged hl he).1
      simp only at h
      split_ifs at h with hk
      · rcases hc : s.cost.update env.lg (env.costFit
          { s with params := none, context := a.context, world := w, Y := some ys }) s.X
          (.list ts) with ⟨c, r⟩
        rw [hc] at h
        cases r with
        | error e => simp at h
        | ok u =>
          simp only [Prod.mk.injEq, and_true] at h
          subst h
          exact { X := rfl, Y := ⟨ys, callsOf s.X ys, rfl, h3, Or.inr ⟨hY, rfl, h1⟩⟩, logged := hl,
                  numAcq := rfl, cumTime := rfl, context := rfl, params := rfl, fits := rfl,
                  timeZero := ⟨_, rfl, rfl⟩, cost := fun hn => absurd hY hn }
      · simp only [Prod.mk.injEq, and_true] at h
        subst h
        exact { X := rfl, Y := ⟨ys, callsOf s.X ys, rfl, h3, Or.inr ⟨hY, rfl, h1⟩⟩, logged := hl,
                numAcq := rfl, cumTime := rfl, context := rfl, params := rfl, fits := rfl,
                timeZero := ⟨_, rfl, rfl⟩, cost := fun hn => absurd hY hn }

/-- A completed run. -/
theorem runOptimization_done {a : RunArgs} {fuel : Nat} {s s' : BOState} {why : Stop}
    (h : runOptimization env a fuel s = (s', .done why)) :
    ∃ obj s0 bs sk s2 Y r, env.obj = some obj ∧ runStart env obj a s = (s0, .ok ()) ∧
      StartSpec env obj a s s0 ∧
      Trace env obj a.limits.1 a.limits.2 a.eps s0 bs sk ∧
      boRound env obj a.limits.1 a.limits.2 a.eps sk = .stop s2 why ∧
      StopSpec env a.limits.1 a.limits.2 a.eps sk why s2 ∧
      s2.Y = some Y ∧ computeResults s2.X Y = .ok r ∧ s' = { s2 with results := some r } := by
  unfold runOptimization at h
  cases ho : env.obj with
  | none => simp [ho] at h
  | some obj =>
    simp only [ho] at h
    rcases hst : runStart env obj a s with ⟨s0, r⟩
    rw [hst] at h
    cases r with
    | error e => simp at h
    | ok u =>
      simp only at h
      rcases hl : boLoop env obj a.limits.1 a.limits.2 a.eps fuel s0 with ⟨s2, r⟩
      rw [hl] at h
      cases r with
      | raised e => simp at h
      | running => simp at h
      | done why' =>
        simp only at h
        cases hY : s2.Y with
        | none => simp [hY] at h
        | some Y =>
          simp only [hY] at h
          cases hr : computeResults s2.X Y with
          | error e => simp [hr] at h
          | ok r =>
            simp only [hr, Prod.mk.injEq, RunResult.done.injEq] at h
            obtain ⟨rfl, rfl⟩ := h
            obtain ⟨bs, sk, h1, -, h3⟩ := boLoop_trace hl
            exact ⟨obj, s0, bs, sk, s2, Y, r, rfl, hst, runStart_ok hst, h1, h3, boRound_stop h3,
              hY, hr, by rw [← hY]⟩

/-- Data after a completed run: initial data, then the batches. -/
theorem run_data {a : RunArgs} {fuel : Nat} {s s' : BOState} {why : Stop}
    (h : runOptimization env a fuel s = (s', .done why)) :
    ∃ obj Y0 new bs, env.obj = some obj ∧
      ((s.Y = some Y0 ∧ new = []) ∨ (s.Y = none ∧ new = callsOf s.X Y0 ∧ Y0.length = s.X.length)) ∧
      s'.X = s.X ++ batchRows bs ∧ s'.Y = some (Y0 ++ batchVals bs) ∧
      (batchVals bs).length = (batchRows bs).length ∧
      s'.world.calls = s.world.calls ++ new ++ callsOf (batchRows bs) (batchVals bs) ∧
      (Logged obj s.world → Logged obj s'.world) ∧ s'.numAcq = bs.length ∧
      s'.context = a.context := by
  obtain ⟨obj, s0, bs, sk, s2, Y, r, ho, -, hst, htr, -, hsp, -, -, rfl⟩ := runOptimization_done h
  obtain ⟨Y0, new, hY0, hc0, hcase⟩ := hst.Y
  obtain ⟨d1, d2, d3, d4, d5, d6, d7, -, -⟩ := htr.data hY0
  obtain ⟨ps, fs, rfl⟩ := hsp.frame
  refine ⟨obj, Y0, new, bs, ho, hcase, ?_, d2, d4, ?_, ?_, ?_, ?_⟩
  · rw [← hst.X]; exact d1
  · rw [← hc0]; exact d3
  · exact fun hl => d5 (hst.logged hl)
  · simpa [hst.numAcq] using d6
  · rw [← hst.context]; exact d7

/-- A round that raises: nothing is lost, at most a batch of locations without outputs is added. -/
theorem boRound_raised {s s' : BOState} {e : Err}
    (h : boRound env obj mi mt eps s = .raised s' e) :
    ∃ m, s'.X = s.X ++ m ∧ s'.Y = s.Y ∧ (Logged obj s.world → Logged obj s'.world) := by
  unfold boRound at h
  split_ifs at h with ht
  rcases hu : updateModel env s with ⟨s1, r⟩
  rw [hu] at h
  obtain ⟨ps, fs, hfr⟩ := updateModel_frame hu
  cases r with
  | error e' =>
    have : s' = s1 := by
      cases e' <;> first | (simp at h; done) | (simp at h; simp [h])
    subst this
    rw [hfr]
    exact ⟨[], by simp, rfl, id⟩
  | ok u =>
    simp only at h
    split_ifs at h with hstop
    cases hsu : env.suggest s1 none none with
    | error e =>
      simp only [hsu, Round.raised.injEq] at h
      rw [← h.1, hfr]
      exact ⟨[], by simp, rfl, id⟩
    | ok m =>
      simp only [hsu] at h
      rcases he : evaluateObjective env obj { s1 with X := s1.X ++ m } m with ⟨s2, r⟩
      rw [he] at h
      obtain ⟨f1, -, f3, f4⟩ := evaluateObjective_frame he
      cases r with
      | ok u => simp at h
      | error e =>
        simp only [Round.raised.injEq] at h
        obtain ⟨rfl, rfl⟩ := h
        refine ⟨m, ?_, ?_, ?_⟩
        · rw [f1, hfr]
        · rw [f4 e rfl, hfr]
        · intro hl
          apply f3
          rw [hfr]
          exact hl

theorem boLoop_prefix {fuel : Nat} {s s' : BOState} {r : RunResult} {Y : Vec}
    (h : boLoop env obj mi mt eps fuel s = (s', r)) (hY : s.Y = some Y) :
    s.X <+: s'.X ∧ (∃ Y', s'.Y = some Y' ∧ Y <+: Y') ∧ (Logged obj s.world → Logged obj s'.world) := by
  obtain ⟨bs, sk, htr, -, hend⟩ := boLoop_trace h
  obtain ⟨d1, d2, -, -, d5, -⟩ := htr.data hY
  have hX : s.X <+: sk.X := by rw [d1]; exact List.prefix_append _ _
  cases r with
  | done why =>
    obtain ⟨ps, fs, rfl⟩ := (boRound_stop hend).frame
    exact ⟨hX, ⟨_, d2, List.prefix_append _ _⟩, d5⟩
  | raised e =>
    obtain ⟨m, h1, h2, h3⟩ := boRound_raised hend
    refine ⟨hX.trans ?_, ⟨_, h2.trans d2, List.prefix_append _ _⟩, fun hl => h3 (d5 hl)⟩
    rw [h1]; exact List.prefix_append _ _
  | running =>
    obtain ⟨rfl, -⟩ := hend
    exact ⟨hX, ⟨_, d2, List.prefix_append _ _⟩, d5⟩

/-- Whatever the outcome, the start of a run keeps the data. -/
theorem runStart_frame {a : RunArgs} {s s0 : BOState} {r : Py Unit}
    (h : runStart env obj a s = (s0, r)) :
    s0.X = s.X ∧ (∀ Y, s.Y = some Y → s0.Y = some Y) ∧ (Logged obj s.world → Logged obj s0.world) := by
  unfold runStart at h
  simp only at h
  cases hY : s.Y with
  | some Y =>
    simp only [hY, Prod.mk.injEq] at h
    obtain ⟨rfl, -⟩ := h
    exact ⟨rfl, fun Y' h => h, id⟩
  | none =>
    simp only [hY] at h
    rcases he : evalFunc obj env.clock s.X s.world with ⟨w, r'⟩
    rw [he] at h
    have hl : Logged obj s.world → Logged obj w := fun hl => (evalFunc_logged hl he).1
    cases r' with
    | error e =>
      simp only [Prod.mk.injEq] at h
      obtain ⟨rfl, -⟩ := h
      exact ⟨rfl, by simp, hl⟩
    | ok p =>
      obtain ⟨ys, ts⟩ := p
      simp only at h
      split_ifs at h with hk
      · rcases hc : s.cost.update env.lg (env.costFit
          { s with params := none, context := a.context, world := w, Y := some ys }) s.X
          (.list ts) with ⟨c, r'⟩
        rw [hc] at h
        cases r' with
        | error e =>
          simp only [Prod.mk.injEq] at h
          obtain ⟨rfl, -⟩ := h
          exact ⟨rfl, by simp, hl⟩
        | ok u =>
          simp only [Prod.mk.injEq] at h
          obtain ⟨rfl, -⟩ := h
          exact ⟨rfl, by simp, hl⟩
      · simp only [Prod.mk.injEq] at h
        obtain ⟨rfl, -⟩ := h
        exact ⟨rfl, by simp, hl⟩

/-- Whatever the outcome, a run keeps the data. -/
theorem run_prefix {a : RunArgs} {fuel : Nat} {s s' : BOState} {r : RunResult}
    (h : runOptimization env a fuel s = (s', r)) :
    s.X <+: s'.X ∧ (∀ Y, s.Y = some Y → ∃ Y', s'.Y = some Y' ∧ Y <+: Y') := by
  unfold runOptimization at h
  cases ho : env.obj with
  | none =>
    simp only [ho, Prod.mk.injEq] at h
    obtain ⟨rfl, -⟩ := h
    exact ⟨List.prefix_rfl, fun Y hY => ⟨Y, hY, List.prefix_rfl⟩⟩
  | some obj =>
    simp only [ho] at h
    rcases hst : runStart env obj a s with ⟨s0, r0⟩
    rw [hst] at h
    obtain ⟨hX, hYs, -⟩ := runStart_frame hst
    cases r0 with
    | error e =>
      simp only [Prod.mk.injEq] at h
      obtain ⟨rfl, -⟩ := h
      exact ⟨hX ▸ List.prefix_rfl, fun Y hY => ⟨Y, hYs Y hY, List.prefix_rfl⟩⟩
    | ok u =>
      simp only at h
      rcases hl : boLoop env obj a.limits.1 a.limits.2 a.eps fuel s0 with ⟨s2, r2⟩
      rw [hl] at h
      obtain ⟨Y0, new, hY0, -⟩ := (runStart_ok hst).Y
      obtain ⟨h1, ⟨Y', h2, h3⟩, -⟩ := boLoop_prefix hl hY0
      have hs' : s'.X = s2.X ∧ s'.Y = s2.Y := by
        cases r2 with
        | raised e => simp only [Prod.mk.injEq] at h; rw [← h.1]; exact ⟨rfl, rfl⟩
        | running => simp only [Prod.mk.injEq] at h; rw [← h.1]; exact ⟨rfl, rfl⟩
        | done why =>
          simp only [h2] at h
          cases hr : computeResults s2.X Y' with
          | error e => simp only [hr, Prod.mk.injEq] at h; rw [← h.1]; exact ⟨rfl, rfl⟩
          | ok r => simp only [hr, Prod.mk.injEq] at h; rw [← h.1]; first | exact ⟨rfl, rfl⟩ | exact ⟨rfl, h2.symm⟩
      refine ⟨?_, ?_⟩
      · rw [hs'.1, ← hX]; exact h1
      · intro Y hY
        have := hYs Y hY
        rw [hY0] at this
        injection this with this
        subst this
        exact ⟨Y', hs'.2.trans h2, h3⟩

/-- Suggesting changes only the records. -/
theorem suggest_frame {c : Option Context} {p i : Option Mat} {s : BOState} :
    ∃ ps fs, (suggestNext env c p i s).1 =
      { s with params := ps, numAcq := 0, context := c, fits := s.fits ++ fs } := by
  unfold suggestNext
  simp only
  rcases hu : updateModel env { s with params := none, numAcq := 0, context := c } with ⟨s1, r⟩
  obtain ⟨ps, fs, rfl⟩ := updateModel_frame hu
  cases r <;> exact ⟨ps, fs, rfl⟩

theorem updateModel_fits {s s1 : BOState} {r : Py Unit} (h : updateModel env s = (s1, r))
    (hr : r ≠ .error .zeroDivision) : s1.fits = s.fits ++ newFits env s := by
  have hsave : ∀ {s s1 : BOState} {r}, saveParams env s = (s1, r) → s1.fits = s.fits := by
    intro s s1 r h
    unfold saveParams at h
    cases hp : env.params s with
    | error e => simp only [hp, Prod.mk.injEq] at h; rw [← h.1]
    | ok p =>
      simp only [hp] at h
      cases hq : s.params with
      | none => simp only [hq, Prod.mk.injEq] at h; rw [← h.1]
      | some ps => simp only [hq, Prod.mk.injEq] at h; rw [← h.1]
  unfold updateModel at h
  split_ifs at h with h0 h1
  · simp only [Prod.mk.injEq] at h; exact absurd h.2.symm hr
  · cases hx : env.sp.unzipInputs s.X with
    | error e => simp only [hx, Prod.mk.injEq] at h; simp [← h.1, newFits, hx]
    | ok Xm =>
      cases hY : s.Y with
      | none => simp only [hx, hY, Prod.mk.injEq] at h; simp [← h.1, newFits, hx, hY]
      | some Y =>
        simp only [hx, hY] at h
        cases hf : env.fit s Xm (env.modelY Y) with
        | error e =>
          simp only [hf, Prod.mk.injEq] at h
          simp [← h.1, newFits, hx, hY, h1]
        | ok u =>
          simp only [hf] at h
          rw [hsave h]
          simp [newFits, hx, hY, h1]
  · rw [hsave h]; simp [newFits, h1]

theorem newFits_ok {s s1 : BOState} (h : updateModel env s = (s1, .ok ()))
    (hd : (s.numAcq : Int) % env.interval = 0) :
    ∃ Xm Y, env.sp.unzipInputs s.X = .ok Xm ∧ s.Y = some Y ∧
      newFits env s = [{ acq := s.numAcq, X := Xm, Y := env.modelY Y }] := by
  unfold updateModel at h
  split_ifs at h with h0
  · simp at h
  · cases hx : env.sp.unzipInputs s.X with
    | error e => simp [hx] at h
    | ok Xm =>
      cases hY : s.Y with
      | none => simp [hx, hY] at h
      | some Y => exact ⟨Xm, Y, rfl, rfl, by simp [newFits, hd, hx, hY]⟩

theorem newFits_nil {s : BOState} (hd : (s.numAcq : Int) % env.interval ≠ 0) : newFits env s = [] := by
  simp [newFits, hd]

/-- every recorded fit uses all the data -/
theorem newFits_mem {s : BOState} {f : Fit} (hf : f ∈ newFits env s) :
    f.acq = s.numAcq ∧ env.sp.unzipInputs s.X = .ok f.X ∧ ∃ Y, s.Y = some Y ∧ f.Y = env.modelY Y := by
  unfold newFits at hf
  split_ifs at hf with hd
  · cases hx : env.sp.unzipInputs s.X with
    | error e => simp [hx] at hf
    | ok Xm =>
      cases hY : s.Y with
      | none => simp [hx, hY] at hf
      | some Y =>
        simp only [hx, hY, List.mem_singleton] at hf
        subst hf
        exact ⟨rfl, rfl, Y, rfl, rfl⟩
  · simp at hf

/-- fits and parameter rows of a sequence of completed rounds -/
theorem Trace.records {s s' : BOState} {bs : List (Mat × Vec)} (h : Trace env obj mi mt eps s bs s')
    {Y : Vec} (hY : s.Y = some Y) :
    ∃ F, s'.fits = s.fits ++ F ∧
      F.map Fit.acq = ((List.range bs.length).map (s.numAcq + ·)).filter
        (fun i : Nat => decide ((i : Int) % env.interval = 0)) ∧
      (∀ f ∈ F, s.numAcq ≤ f.acq ∧
        env.sp.unzipInputs (s.X ++ batchRows (bs.take (f.acq - s.numAcq))) = .ok f.X ∧
        f.Y = env.modelY (Y ++ batchVals (bs.take (f.acq - s.numAcq)))) ∧
      (s'.params.getD []).length = (s.params.getD []).length + bs.length := by
  induction h generalizing Y with
  | nil s => exact ⟨[], by simp, by simp, by simp, by simp⟩
  | @cons s s1 s' m ys bs hr hs ht ih =>
    obtain ⟨Y0, hY0, hY1⟩ := hs.Y
    rw [hY] at hY0
    injection hY0 with hY0
    subst hY0
    obtain ⟨F, h1, h2, h3, h4⟩ := ih hY1
    obtain ⟨p, hp⟩ := hs.params
    have hb1 : ∀ n, batchRows (((m, ys) :: bs).take (n + 1)) = m ++ batchRows (bs.take n) := by
      intro n; simp [batchRows]
    have hb2 : ∀ n, batchVals (((m, ys) :: bs).take (n + 1)) = ys ++ batchVals (bs.take n) := by
      intro n; simp [batchVals]
    refine ⟨newFits env s ++ F, ?_, ?_, ?_, ?_⟩
    · rw [h1, hs.fits, List.append_assoc]
    · have hrange : (List.range (bs.length + 1)).map (s.numAcq + ·)
          = s.numAcq :: (List.range bs.length).map (s1.numAcq + ·) := by
        rw [List.range_succ_eq_map, List.map_cons, List.map_map, hs.numAcq]
        congr 1
        apply List.map_congr_left
        intro i _
        simp only [Function.comp]
        omega
      rw [List.length_cons, hrange, List.filter_cons, List.map_append, h2]
      have hu : updateModel env s = ((updateModel env s).1, .ok ()) := by rw [← hs.fitted]
      split_ifs with hd
      · simp only [decide_eq_true_eq] at hd
        obtain ⟨Xm, Y', -, -, hn⟩ := newFits_ok hu hd
        rw [hn]; rfl
      · simp only [decide_eq_true_eq] at hd
        rw [newFits_nil hd]; rfl
    · intro f hf
      rcases List.mem_append.1 hf with hf | hf
      · obtain ⟨e1, e2, Y', e3, e4⟩ := newFits_mem hf
        rw [hY] at e3
        injection e3 with e3
        subst e3
        rw [e1]
        exact ⟨le_refl _, by simpa [batchRows] using e2, by simpa [batchVals] using e4⟩
      · obtain ⟨e1, e2, e3⟩ := h3 f hf
        rw [hs.numAcq] at e1 e2 e3
        have hn : f.acq - s.numAcq = (f.acq - (s.numAcq + 1)) + 1 := by omega
        refine ⟨by omega, ?_, ?_⟩
        · rw [hn, hb1, ← List.append_assoc, ← hs.X]; exact e2
        · rw [hn, hb2, ← List.append_assoc]; exact e3
    · rw [h4, hp]
      simp
      omega

end GPyOpt
