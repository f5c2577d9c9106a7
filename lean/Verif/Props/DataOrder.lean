import Verif.Props.SetLike
import Verif.Props.Resume
import Verif.Props.General
import Verif.Props.FloatNorm
import Mathlib.LinearAlgebra.Matrix.NonsingularInverse

/-!
# C149: the order of the initial data does not matter

A run (or a suggestion) from the initial data in another order. The model, the acquisition function and the random numbers
may depend on the data they have seen as a multiset of pairs, on the number of acquisitions, and on the clock.
-/

namespace GPyOpt

/-! ## Data as a multiset -/

/-- The same pairs, in any order. -/
structure SamePairs (A : Mat) (YA : Vec) (B : Mat) (YB : Vec) : Prop where
  len : A.length = YA.length
  len' : B.length = YB.length
  perm : (A.zip YA).Perm (B.zip YB)

/-- The pairs a model was fitted to, without their order. -/
def Fit.pairs (f : Fit) : Multiset (Vec × ℚ) := ↑(f.X.zip f.Y)

/-- All that the components of an object may know of the data: for every fit, its time and its pairs without order. -/
def BOState.seen (s : BOState) : List (Nat × Multiset (Vec × ℚ)) := s.fits.map fun f => (f.acq, f.pairs)

/-- The external components do not look at the order of the data. -/
structure Orderless (env : BOEnv) (ev : Evaluator) (deDup : Bool) : Prop where
  fit : ∃ φ : Option Context → Nat → Multiset (Vec × ℚ) → Py Unit,
    ∀ s X Y, env.fit s X Y = φ s.context s.numAcq ↑(X.zip Y)
  params : ∃ ρ : List (Nat × Multiset (Vec × ℚ)) → Py Vec, ∀ s, env.params s = ρ s.seen
  costFit : ∃ κ : CostModel → Py Unit, ∀ s, env.costFit s = κ s.cost
  normalize : ∃ ν : Multiset ℚ → ℚ → ℚ, ∀ Y : Vec, env.normalize Y = Y.map (ν ↑Y)
  suggest : ∃ G : Option Context → Nat → CostModel → Nat → List (Nat × Multiset (Vec × ℚ)) → EvalEnv,
    env.suggest = stdSuggest env.sp ev (fun s => G s.context s.numAcq s.cost s.world.ticks s.seen) deDup

theorem SamePairs.permX {A B : Mat} {YA YB : Vec} (h : SamePairs A YA B YB) : A.Perm B := by
  have := h.perm.map Prod.fst
  rwa [List.map_fst_zip (le_of_eq h.len), List.map_fst_zip (le_of_eq h.len')] at this

theorem SamePairs.permY {A B : Mat} {YA YB : Vec} (h : SamePairs A YA B YB) : YA.Perm YB := by
  have := h.perm.map Prod.snd
  rwa [List.map_snd_zip (le_of_eq h.len.symm), List.map_snd_zip (le_of_eq h.len'.symm)] at this

theorem SamePairs.zip_append {A B : Mat} {YA YB : Vec} (h : SamePairs A YA B YB) (N : Mat) (YN : Vec) :
    ((A ++ N).zip (YA ++ YN)).Perm ((B ++ N).zip (YB ++ YN)) := by
  rw [List.zip_append h.len, List.zip_append h.len']
  exact h.perm.append_right _

theorem mapE_append {α β : Type} (f : α → Py β) (l l' : List α) :
    mapE f (l ++ l') = (mapE f l).bind fun r => (mapE f l').map fun r' => r ++ r' := by
  induction l with
  | nil => simp only [List.nil_append, mapE_nil, Except.bind]; cases mapE f l' <;> rfl
  | cons a l ih =>
    simp only [List.cons_append, mapE, ih]
    cases f a with
    | error e => rfl
    | ok b =>
      cases mapE f l with
      | error e => rfl
      | ok bs => cases mapE f l' <;> rfl

/-- The initial rows can be encoded: a row that cannot is reported in either order, but another one may be found first. -/
theorem unzip_reorder {sp : Space} {A B : Mat} (hp : A.Perm B) (hA : A ≠ []) {M : Mat}
    (hok : sp.unzipInputs A = .ok M) (N : Mat) :
    (∃ e, sp.unzipInputs (A ++ N) = .error e ∧ sp.unzipInputs (B ++ N) = .error e) ∨
    ∃ enc : Vec → Vec, sp.unzipInputs (A ++ N) = .ok ((A ++ N).map enc) ∧
      sp.unzipInputs (B ++ N) = .ok ((B ++ N).map enc) := by
  unfold Space.unzipInputs at hok ⊢
  by_cases hb : sp.hasBandit
  · simp only [hb, if_true]
    exact Or.inr ⟨id, by simp, by simp⟩
  · simp only [hb] at hok ⊢
    obtain ⟨MA, hMA, -⟩ := Except_map_eq_ok.1 hok
    obtain ⟨enc, henc⟩ : ∃ enc : Vec → Vec, ∀ x m, sp.objectiveToModel x = .ok m → enc x = m :=
      ⟨fun x => match sp.objectiveToModel x with | .ok m => m | .error _ => [], fun x m h => by simp [h]⟩
    have all : ∀ L : Mat, (∀ x ∈ L, ∃ m, sp.objectiveToModel x = .ok m) →
        mapE sp.objectiveToModel L = .ok (L.map enc) := by
      intro L hL
      apply mapE_map_ok
      intro x hx
      obtain ⟨m, hm⟩ := hL x hx
      rw [hm, henc x m hm]
    have hAok : ∀ x ∈ A, ∃ m, sp.objectiveToModel x = .ok m := fun x hx => by
      obtain ⟨m, -, hm⟩ := mapE_ok_mem' hMA hx
      exact ⟨m, hm⟩
    have hB : B ≠ [] := fun h => hA (by rw [h] at hp; exact hp.eq_nil)
    have ha2 : ∀ {L L' : Mat}, L ≠ [] → atleast2d ((L ++ L').map enc) = (L ++ L').map enc := by
      intro L L' hL
      cases L with
      | nil => exact absurd rfl hL
      | cons x L => rfl
    rw [mapE_append, mapE_append, all A hAok, all B fun x hx => hAok x (hp.mem_iff.2 hx)]
    cases hN : mapE sp.objectiveToModel N with
    | error e => exact Or.inl ⟨e, rfl, rfl⟩
    | ok MN =>
      have hMN : MN = N.map enc := by
        rw [all N fun x hx => by obtain ⟨m, -, hm⟩ := mapE_ok_mem' hN hx; exact ⟨m, hm⟩] at hN
        injection hN with hN
        exact hN.symm
      refine Or.inr ⟨enc, ?_, ?_⟩
      · simp only [Except.bind, Except_map_ok, hMN, ← List.map_append, ha2 hA, Bool.false_eq_true, if_false]
      · simp only [Except.bind, Except_map_ok, hMN, ← List.map_append, ha2 hB, Bool.false_eq_true, if_false]

/-- Two objects whose initial data are the same in another order, and which have collected the same data since. -/
structure Reordered (A : Mat) (YA : Vec) (B : Mat) (YB : Vec) (CA CB : List (Vec × Py ℚ)) (s t : BOState) : Prop where
  data : ∃ (N : Mat) (YN : Vec), s.X = A ++ N ∧ t.X = B ++ N ∧ s.Y = some (YA ++ YN) ∧ t.Y = some (YB ++ YN) ∧
    YN.length ≤ N.length
  calls : ∃ C : List (Vec × Py ℚ), s.world.calls = CA ++ C ∧ t.world.calls = CB ++ C
  context : s.context = t.context
  numAcq : s.numAcq = t.numAcq
  params : s.params = t.params
  cost : s.cost = t.cost
  timeZero : s.timeZero = t.timeZero
  cumTime : s.cumTime = t.cumTime
  ticks : s.world.ticks = t.world.ticks
  seen : s.seen = t.seen

/-- Two initial data sets for which the rule that compares the last two locations decides alike. -/
def StopAlike (eps : ℚ) (A B : Mat) : Prop := eps < 0 ∨ A.reverse.take 2 = B.reverse.take 2

theorem StopAlike.close {eps : ℚ} {A B : Mat} (h : StopAlike eps A B) (N : Mat) :
    lastTwoClose eps (A ++ N) = lastTwoClose eps (B ++ N) := by
  rcases h with h | h
  · have hf : ∀ L : Mat, lastTwoClose eps L = false := by
      intro L
      unfold lastTwoClose
      rcases L.reverse with _ | ⟨a, _ | ⟨b, l⟩⟩
      · rfl
      · rfl
      · simp only [decide_eq_false_iff_not, not_and]
        intro h0
        exact absurd h0 (not_le.2 h)
    rw [hf, hf]
  · have ht : ∀ L : Mat, lastTwoClose eps L = match L.reverse.take 2 with
        | [a, b] => decide (0 ≤ eps ∧ rowSqDist a b ≤ eps ^ 2)
        | _ => false := by
      intro L
      unfold lastTwoClose
      rcases L.reverse with _ | ⟨a, _ | ⟨b, l⟩⟩ <;> rfl
    rw [ht, ht, List.reverse_append, List.reverse_append, List.take_append, List.take_append]
    have : A.reverse.take (2 - N.reverse.length) = B.reverse.take (2 - N.reverse.length) := by
      have := congrArg (List.take (2 - N.reverse.length)) h
      rwa [List.take_take, List.take_take, min_eq_left (by omega)] at this
    rw [this]

variable {env : BOEnv} {ev : Evaluator} {deDup : Bool} {A B : Mat} {YA YB : Vec} {CA CB : List (Vec × Py ℚ)}

theorem evalFunc_reorder {obj : Nat → Vec → Py ℚ} {clock : Nat → ℚ} (hc : CA.length = CB.length) {xs : Mat} {w v : World}
    {C : List (Vec × Py ℚ)} (hw : w.calls = CA ++ C) (hv : v.calls = CB ++ C) (ht : w.ticks = v.ticks) :
    (evalFunc obj clock xs w).2 = (evalFunc obj clock xs v).2 ∧
    (evalFunc obj clock xs w).1.ticks = (evalFunc obj clock xs v).1.ticks ∧
    ∃ C', (evalFunc obj clock xs w).1.calls = CA ++ C' ∧ (evalFunc obj clock xs v).1.calls = CB ++ C' := by
  induction xs generalizing w v C with
  | nil => exact ⟨rfl, ht, C, hw, hv⟩
  | cons x xs ih =>
    have hl : w.calls.length = v.calls.length := by simp [hw, hv, hc]
    unfold evalFunc
    rw [← hl]
    cases ho : obj w.calls.length x with
    | error e => exact ⟨rfl, by simp [ht], C ++ [(x, .error e)], by simp [hw], by simp [hv]⟩
    | ok y =>
      simp only
      have := ih (w := { calls := w.calls ++ [(x, .ok y)], ticks := w.ticks + 2 })
        (v := { calls := v.calls ++ [(x, .ok y)], ticks := v.ticks + 2 }) (C := C ++ [(x, .ok y)])
        (by simp [hw]) (by simp [hv]) (by simp [ht])
      rcases h1 : evalFunc obj clock xs { calls := w.calls ++ [(x, .ok y)], ticks := w.ticks + 2 } with ⟨w1, r1⟩
      rcases h2 : evalFunc obj clock xs { calls := v.calls ++ [(x, .ok y)], ticks := v.ticks + 2 } with ⟨w2, r2⟩
      rw [h1, h2] at this
      simp only at this
      obtain ⟨rfl, h3, h4⟩ := this
      cases r1 with
      | error e => exact ⟨rfl, h3, h4⟩
      | ok p => exact ⟨by simp only [ht], h3, h4⟩

theorem evalFunc_len {obj : Nat → Vec → Py ℚ} {clock : Nat → ℚ} {xs : Mat} {w w' : World} {ys ts : Vec}
    (h : evalFunc obj clock xs w = (w', .ok (ys, ts))) : ys.length = xs.length := by
  induction xs generalizing w w' ys ts with
  | nil => simp [evalFunc] at h; simp [← h.2.1]
  | cons x xs ih =>
    unfold evalFunc at h
    cases ho : obj w.calls.length x with
    | error e => simp [ho] at h
    | ok y =>
      simp only [ho] at h
      rcases h1 : evalFunc obj clock xs { calls := w.calls ++ [(x, .ok y)], ticks := w.ticks + 2 } with ⟨w1, r1⟩
      rw [h1] at h
      cases r1 with
      | error e => simp at h
      | ok p =>
        simp only [Prod.mk.injEq, Except.ok.injEq] at h
        rw [← h.2.1, List.length_cons, List.length_cons, ih h1]

theorem saveParams_reorder (ho : Orderless env ev deDup) {s t : BOState} (h : Reordered A YA B YB CA CB s t) :
    (saveParams env s).2 = (saveParams env t).2 ∧ Reordered A YA B YB CA CB (saveParams env s).1 (saveParams env t).1 := by
  obtain ⟨ρ, hρ⟩ := ho.params
  unfold saveParams
  rw [hρ, hρ, h.seen, h.params]
  cases ρ t.seen with
  | error e => exact ⟨rfl, h⟩
  | ok p =>
    cases hp : t.params with
    | none => exact ⟨rfl, { h with params := rfl }⟩
    | some ps => exact ⟨rfl, { h with params := rfl }⟩

theorem zip_map_pairs (X : Mat) (Y : Vec) (f : Vec → Vec) (g : ℚ → ℚ) :
    (X.map f).zip (Y.map g) = (X.zip Y).map (Prod.map f g) := by
  rw [List.zip_map]

theorem modelY_reorder (ho : Orderless env ev deDup) {Y Y' : Vec} (hp : Y.Perm Y') :
    ∃ g : ℚ → ℚ, env.modelY Y = Y.map g ∧ env.modelY Y' = Y'.map g := by
  obtain ⟨ν, hν⟩ := ho.normalize
  unfold BOEnv.modelY
  split_ifs
  · refine ⟨ν ↑Y, hν Y, ?_⟩
    rw [hν Y', Multiset.coe_eq_coe.2 hp]
  · exact ⟨id, by simp, by simp⟩

theorem updateModel_reorder (ho : Orderless env ev deDup) (hp : SamePairs A YA B YB) (hA : A ≠ []) {M : Mat}
    (hok : env.sp.unzipInputs A = .ok M) {s t : BOState} (h : Reordered A YA B YB CA CB s t) :
    (updateModel env s).2 = (updateModel env t).2 ∧
      Reordered A YA B YB CA CB (updateModel env s).1 (updateModel env t).1 := by
  obtain ⟨N, YN, hX, hX', hY, hY', hl⟩ := h.data
  obtain ⟨φ, hφ⟩ := ho.fit
  unfold updateModel
  rw [h.numAcq]
  split_ifs with h0 h1
  · exact ⟨rfl, h⟩
  · rw [hX, hX', hY, hY']
    rcases unzip_reorder hp.permX hA hok N with ⟨e, e1, e2⟩ | ⟨enc, e1, e2⟩
    · rw [e1, e2]
      exact ⟨rfl, h⟩
    · rw [e1, e2]
      simp only
      obtain ⟨g, g1, g2⟩ := modelY_reorder ho (hp.permY.append_right YN)
      have hpair : Multiset.ofList (((A ++ N).map enc).zip (env.modelY (YA ++ YN))) =
          Multiset.ofList (((B ++ N).map enc).zip (env.modelY (YB ++ YN))) := by
        rw [g1, g2, zip_map_pairs, zip_map_pairs]
        exact Multiset.coe_eq_coe.2 ((hp.zip_append N YN).map _)
      have hfit : env.fit s ((A ++ N).map enc) (env.modelY (YA ++ YN)) =
          env.fit t ((B ++ N).map enc) (env.modelY (YB ++ YN)) := by
        rw [hφ, hφ, hpair, h.context, h.numAcq]
      have h' : Reordered A YA B YB CA CB
          { s with fits := s.fits ++ [{ acq := t.numAcq, X := (A ++ N).map enc, Y := env.modelY (YA ++ YN) }] }
          { t with fits := t.fits ++ [{ acq := t.numAcq, X := (B ++ N).map enc, Y := env.modelY (YB ++ YN) }] } :=
        { h with
          seen := by
            have := h.seen
            unfold BOState.seen at this ⊢
            simp only at this ⊢
            rw [List.map_append (l₁ := s.fits), List.map_append (l₁ := t.fits), this]
            unfold Fit.pairs
            rw [List.map_singleton, List.map_singleton, hpair] }
      simp only [hX, hX', hY, hY', h.numAcq] at h' hfit ⊢
      rw [hfit]
      cases env.fit t ((B ++ N).map enc) (env.modelY (YB ++ YN)) with
      | error e => exact ⟨rfl, h'⟩
      | ok u => exact saveParams_reorder ho h'
  · exact saveParams_reorder ho h

theorem suggest_reorder (ho : Orderless env ev deDup) (hp : SamePairs A YA B YB) {s t : BOState}
    (h : Reordered A YA B YB CA CB s t) (p i : Option Mat) : env.suggest s p i = env.suggest t p i := by
  obtain ⟨G, hG⟩ := ho.suggest
  obtain ⟨N, YN, hX, hX', -⟩ := h.data
  rw [hG]
  unfold stdSuggest
  simp only
  rw [h.context, h.numAcq, h.cost, h.ticks, h.seen]
  apply Props.C117_known_points
  intro x
  have : ∀ r, r ∈ s.X ↔ r ∈ t.X := by
    intro r
    rw [hX, hX', List.mem_append, List.mem_append, hp.permX.mem_iff]
  simp only [Props.KnownPoint, this]

theorem evaluateObjective_reorder (ho : Orderless env ev deDup) {obj : Nat → Vec → Py ℚ} (hc : CA.length = CB.length)
    {s t : BOState} (h : Reordered A YA B YB CA CB s t) (m : Mat) :
    (evaluateObjective env obj { s with X := s.X ++ m } m).2 = (evaluateObjective env obj { t with X := t.X ++ m } m).2 ∧
    Reordered A YA B YB CA CB (evaluateObjective env obj { s with X := s.X ++ m } m).1
      (evaluateObjective env obj { t with X := t.X ++ m } m).1 := by
  obtain ⟨N, YN, hX, hX', hY, hY', hl⟩ := h.data
  obtain ⟨C, hC, hC'⟩ := h.calls
  obtain ⟨κ, hκ⟩ := ho.costFit
  have hs0 : s.seen = t.seen := h.seen
  have hcx := h.context
  have hna := h.numAcq
  have hpa := h.params
  have hco := h.cost
  have htz := h.timeZero
  have hct := h.cumTime
  obtain ⟨g1, g2, C', g3, g4⟩ := evalFunc_reorder (obj := obj) (clock := env.clock) hc (xs := m) hC hC' h.ticks
  unfold evaluateObjective
  rcases e1 : evalFunc obj env.clock m s.world with ⟨w, r⟩
  rcases e2 : evalFunc obj env.clock m t.world with ⟨v, r'⟩
  rw [e1, e2] at g1 g2
  rw [e1] at g3
  rw [e2] at g4
  simp only at g1 g2 g3 g4
  subst g1
  have hd : ∀ ys : Vec, ys.length ≤ m.length → ∃ (N' : Mat) (YN' : Vec), s.X ++ m = A ++ N' ∧ t.X ++ m = B ++ N' ∧
      YA ++ YN ++ ys = YA ++ YN' ∧ YB ++ YN ++ ys = YB ++ YN' ∧ YN'.length ≤ N'.length := by
    intro ys hys
    exact ⟨N ++ m, YN ++ ys, by rw [hX, List.append_assoc], by rw [hX', List.append_assoc], by rw [List.append_assoc],
      by rw [List.append_assoc], by simp only [List.length_append]; omega⟩
  obtain ⟨N0, YN0, d1, d2, d3, d4, d5⟩ := hd [] (by simp)
  rw [List.append_nil] at d3 d4
  have hY0 : s.Y = some (YA ++ YN0) := by rw [← d3]; exact hY
  have hY0' : t.Y = some (YB ++ YN0) := by rw [← d4]; exact hY'
  cases r with
  | error e =>
    exact ⟨rfl, ⟨N0, YN0, d1, d2, hY0, hY0', d5⟩, ⟨C', g3, g4⟩, hcx, hna, hpa, hco, htz, hct, g2, hs0⟩
  | ok q =>
    obtain ⟨ys, ts⟩ := q
    simp only [hκ]
    rw [hco]
    rcases hu : t.cost.update env.lg (κ t.cost) m (.list ts) with ⟨c, ru⟩
    cases ru with
    | error e =>
      exact ⟨rfl, ⟨N0, YN0, d1, d2, hY0, hY0', d5⟩, ⟨C', g3, g4⟩, hcx, hna, hpa, rfl, htz, hct, g2, hs0⟩
    | ok u =>
      simp only [hY, hY']
      obtain ⟨N1, YN1, f1, f2, f3, f4, f5⟩ := hd ys (by rw [evalFunc_len e1])
      refine ⟨trivial, ⟨N1, YN1, f1, f2, congrArg some f3, congrArg some f4, f5⟩, ⟨C', g3, g4⟩, hcx, hna, hpa, rfl, htz, hct, g2, hs0⟩

/-- Corresponding results of two rounds. -/
inductive RoundReordered (A : Mat) (YA : Vec) (B : Mat) (YB : Vec) (CA CB : List (Vec × Py ℚ)) : Round → Round → Prop
  | next {s t : BOState} : Reordered A YA B YB CA CB s t → RoundReordered A YA B YB CA CB (.next s) (.next t)
  | stop {s t : BOState} (why : Stop) : Reordered A YA B YB CA CB s t →
      RoundReordered A YA B YB CA CB (.stop s why) (.stop t why)
  | raised {s t : BOState} (e : Err) : Reordered A YA B YB CA CB s t →
      RoundReordered A YA B YB CA CB (.raised s e) (.raised t e)

theorem boRound_reorder (ho : Orderless env ev deDup) (hp : SamePairs A YA B YB) (hA : A ≠ []) {M : Mat}
    (hok : env.sp.unzipInputs A = .ok M) (hc : CA.length = CB.length) {obj : Nat → Vec → Py ℚ} {mi mt : Limit} {eps : ℚ}
    (he : StopAlike eps A B) {s t : BOState} (h : Reordered A YA B YB CA CB s t) :
    RoundReordered A YA B YB CA CB (boRound env obj mi mt eps s) (boRound env obj mi mt eps t) := by
  obtain ⟨hu, hsim⟩ := updateModel_reorder ho hp hA hok h
  unfold boRound
  rw [h.cumTime]
  split_ifs with htt
  · rcases e1 : updateModel env s with ⟨s1, r⟩
    rcases e2 : updateModel env t with ⟨t1, r'⟩
    rw [e1, e2] at hu hsim
    simp only at hu hsim
    subst hu
    cases r with
    | error e => cases e <;> first | exact .stop _ hsim | exact .raised _ hsim
    | ok u =>
      simp only
      have hclose : lastTwoClose eps s1.X = lastTwoClose eps t1.X := by
        obtain ⟨N, YN, hX, hX', -⟩ := hsim.data
        rw [hX, hX', he.close]
      by_cases hstop : ¬ mi.exceeds (t1.numAcq : ℚ) = true ∨ lastTwoClose eps t1.X = true
      · rw [if_pos hstop, if_pos (by rw [hsim.numAcq, hclose]; exact hstop)]
        exact .stop _ hsim
      · rw [if_neg hstop, if_neg (by rw [hsim.numAcq, hclose]; exact hstop)]
        rw [suggest_reorder ho hp hsim]
        cases env.suggest t1 none none with
        | error e => exact .raised _ hsim
        | ok m =>
          simp only
          obtain ⟨g1, g2⟩ := evaluateObjective_reorder (obj := obj) ho hc hsim m
          rcases e3 : evaluateObjective env obj { s1 with X := s1.X ++ m } m with ⟨s2, r⟩
          rcases e4 : evaluateObjective env obj { t1 with X := t1.X ++ m } m with ⟨t2, r'⟩
          rw [e3, e4] at g1 g2
          simp only at g1 g2
          subst g1
          cases r with
          | error e => exact .raised _ g2
          | ok u =>
            refine .next { g2 with numAcq := ?_, cumTime := ?_, ticks := ?_ }
            · simp only [g2.numAcq]
            · simp only [g2.ticks, g2.timeZero]
            · simp only [g2.ticks]
  · exact .stop _ h

theorem boLoop_reorder (ho : Orderless env ev deDup) (hp : SamePairs A YA B YB) (hA : A ≠ []) {M : Mat}
    (hok : env.sp.unzipInputs A = .ok M) (hc : CA.length = CB.length) {obj : Nat → Vec → Py ℚ} {mi mt : Limit} {eps : ℚ}
    (he : StopAlike eps A B) (fuel : Nat) {s t : BOState} (h : Reordered A YA B YB CA CB s t) :
    (boLoop env obj mi mt eps fuel s).2 = (boLoop env obj mi mt eps fuel t).2 ∧
    Reordered A YA B YB CA CB (boLoop env obj mi mt eps fuel s).1 (boLoop env obj mi mt eps fuel t).1 := by
  induction fuel generalizing s t with
  | zero => exact ⟨rfl, h⟩
  | succ fuel ih =>
    have hr := boRound_reorder (obj := obj) (mi := mi) (mt := mt) ho hp hA hok hc he h
    unfold boLoop
    generalize boRound env obj mi mt eps s = a at hr
    generalize boRound env obj mi mt eps t = b at hr
    cases hr with
    | raised e h1 => exact ⟨rfl, h1⟩
    | stop why h1 => exact ⟨rfl, h1⟩
    | next h1 => exact ih h1

end GPyOpt

namespace GPyOpt.Props

open GPyOpt Spec

/-! ## Results -/

theorem computeResults_pair {X : Mat} {Y : Vec} (hY : Y ≠ []) (hl : Y.length ≤ X.length) :
    ∃ (r : Results) (i : Nat), computeResults X Y = .ok r ∧ r.yBest = bestValue Y ∧ X[i]? = some r.xOpt ∧
      Y[i]? = some r.fxOpt ∧ ∀ y ∈ Y, r.fxOpt ≤ y := by
  obtain ⟨i, v, h1, h2, h3, h4⟩ := argmin_spec hY
  have hx : i < X.length := lt_of_lt_of_le h2 hl
  have e1 : npGet X i = .ok X[i] := npGet_ok.2 (List.getElem?_eq_getElem hx)
  have e2 : npGet Y i = .ok v := npGet_ok.2 h3
  refine ⟨{ yBest := bestValue Y, xOpt := X[i], fxOpt := v }, i, ?_, rfl, List.getElem?_eq_getElem hx, h3, ?_⟩
  · unfold computeResults
    rw [h1]
    simp only [e1, e2]
  · intro y hy
    obtain ⟨j, hj⟩ := List.mem_iff_getElem?.1 hy
    exact (h4 j y hj).1

theorem bestValue_perm {Y Y' : Vec} {n : Nat} (h : ∀ k, n ≤ k → (Y.take k).Perm (Y'.take k)) (hl : Y.length = Y'.length)
    {k : Nat} (hk : n ≤ k + 1) : (bestValue Y)[k]? = (bestValue Y')[k]? := by
  unfold bestValue
  rw [List.getElem?_map, List.getElem?_map, hl]
  cases hr : (List.range Y'.length)[k]? with
  | none => rfl
  | some i =>
    obtain ⟨hi, rfl⟩ : k < Y'.length ∧ k = i := by
      rw [List.getElem?_eq_some_iff] at hr
      obtain ⟨h1, h2⟩ := hr
      rw [List.getElem_range] at h2
      exact ⟨by simpa using h1, h2⟩
    simp only [Option.map_some, Option.some.injEq]
    have hp := h (k + 1) hk
    have hne : Y.take (k + 1) ≠ [] := by
      intro h0
      have := congrArg List.length h0
      rw [List.length_take, List.length_nil] at this
      omega
    generalize Y.take (k + 1) = L at hp hne
    generalize Y'.take (k + 1) = L' at hp
    have spec : ∀ L : Vec, L ≠ [] → L.foldl min (L.headD 0) ∈ L ∧ ∀ y ∈ L, L.foldl min (L.headD 0) ≤ y := by
      intro L hL
      obtain ⟨a, b, c⟩ := minQ_fold L (L.headD 0)
      refine ⟨?_, a⟩
      rcases c with c | c
      · rw [c]
        cases L with
        | nil => exact absurd rfl hL
        | cons x L => simp
      · exact c
    have hne' : L' ≠ [] := fun h0 => hne (by rw [h0] at hp; exact hp.eq_nil)
    obtain ⟨a1, a2⟩ := spec L hne
    obtain ⟨b1, b2⟩ := spec L' hne'
    exact le_antisymm (a2 _ (hp.mem_iff.2 b1)) (b2 _ (hp.mem_iff.1 a1))

/-! ## Runs -/

section
variable {env : BOEnv} {ev : Evaluator} {deDup : Bool} {A B : Mat} {YA YB : Vec} {CA CB : List (Vec × Py ℚ)}

/-- The results of two runs from the same data in another order, after the new data `N`, `YN`. -/
structure SameResults (YA : Vec) (X X' : Mat) (Y Y' : Vec) (r r' : Results) : Prop where
  value : r.fxOpt = r'.fxOpt
  location : (∀ (i j : Nat) (x z : Vec), X[i]? = some x → X[j]? = some z → Y[i]? = some r.fxOpt → Y[j]? = some r.fxOpt →
    x = z) → r.xOpt = r'.xOpt
  best : ∀ k, YA.length ≤ k + 1 → r.yBest[k]? = r'.yBest[k]?
  reported : (r.xOpt, r.fxOpt) ∈ X'.zip Y' ∧ (r'.xOpt, r'.fxOpt) ∈ X.zip Y

/-- What two runs from the same data in another order have in common. -/
structure SameRun (A : Mat) (YA : Vec) (B : Mat) (YB : Vec) (R R' : BOState × RunResult) : Prop where
  outcome : R.2 = R'.2
  data : ∃ (N : Mat) (YN : Vec), R.1.X = A ++ N ∧ R'.1.X = B ++ N ∧ R.1.Y = some (YA ++ YN) ∧ R'.1.Y = some (YB ++ YN)
  numAcq : R.1.numAcq = R'.1.numAcq
  cost : R.1.cost = R'.1.cost
  params : R.1.params = R'.1.params
  time : R.1.cumTime = R'.1.cumTime
  results : ∀ why, R.2 = .done why → ∃ (Y Y' : Vec) (r r' : Results), R.1.Y = some Y ∧ R'.1.Y = some Y' ∧
    R.1.results = some r ∧ R'.1.results = some r' ∧ SameResults YA R.1.X R'.1.X Y Y' r r'

theorem zip_mem_of_getElem? {X : Mat} {Y : Vec} {i : Nat} {x : Vec} {y : ℚ} (hx : X[i]? = some x) (hy : Y[i]? = some y) :
    (x, y) ∈ X.zip Y :=
  List.mem_of_getElem? (List.getElem?_zip_eq_some.2 ⟨hx, hy⟩)

theorem sameResults (hp : SamePairs A YA B YB) (hA : A ≠ []) {N : Mat} {YN : Vec} (hl : YN.length ≤ N.length) :
    ∃ r r', computeResults (A ++ N) (YA ++ YN) = .ok r ∧ computeResults (B ++ N) (YB ++ YN) = .ok r' ∧
      SameResults YA (A ++ N) (B ++ N) (YA ++ YN) (YB ++ YN) r r' := by
  have hlen : YA.length = YB.length := hp.permY.length_eq
  have hYA : YA ≠ [] := fun h0 => hA (List.length_eq_zero_iff.1 (by rw [hp.len, h0]; rfl))
  have hYB : YB ≠ [] := fun h0 => hYA (List.length_eq_zero_iff.1 (by rw [hlen, h0]; rfl))
  obtain ⟨r, i, e1, e2, e3, e4, e5⟩ := computeResults_pair (X := A ++ N) (Y := YA ++ YN) (by simp [hYA])
    (by simp only [List.length_append, hp.len]; omega)
  obtain ⟨r', i', f1, f2, f3, f4, f5⟩ := computeResults_pair (X := B ++ N) (Y := YB ++ YN) (by simp [hYB])
    (by simp only [List.length_append, hp.len']; omega)
  have hz := hp.zip_append N YN
  have m1 : (r.xOpt, r.fxOpt) ∈ (B ++ N).zip (YB ++ YN) := hz.mem_iff.1 (zip_mem_of_getElem? e3 e4)
  have m2 : (r'.xOpt, r'.fxOpt) ∈ (A ++ N).zip (YA ++ YN) := hz.mem_iff.2 (zip_mem_of_getElem? f3 f4)
  have hv : r.fxOpt = r'.fxOpt :=
    le_antisymm (e5 _ (List.of_mem_zip m2).2) (f5 _ (List.of_mem_zip m1).2)
  refine ⟨r, r', e1, f1, hv, ?_, ?_, m1, m2⟩
  · intro h
    obtain ⟨j, hj⟩ := List.mem_iff_getElem?.1 m2
    obtain ⟨hj1, hj2⟩ := List.getElem?_zip_eq_some.1 hj
    exact h i j _ _ e3 hj1 e4 (by rw [hv]; exact hj2)
  · intro k hk
    rw [e2, f2]
    refine bestValue_perm (n := YA.length) ?_ (by simp [hlen]) hk
    intro k hk
    rw [List.take_append, List.take_append, List.take_of_length_le (l := YA) hk, List.take_of_length_le (l := YB) (hlen ▸ hk), hlen]
    exact hp.permY.append_right _

theorem finish_reorder (ho : Orderless env ev deDup) (hp : SamePairs A YA B YB) (hA : A ≠ []) {M : Mat}
    (hok : env.sp.unzipInputs A = .ok M) (hc : CA.length = CB.length) {obj : Nat → Vec → Py ℚ} (hobj : env.obj = some obj)
    (a : RunArgs) (he : StopAlike a.eps A B) (fuel : Nat) {s t s1 t1 : BOState} (hs : runStart env obj a s = (s1, .ok ()))
    (ht : runStart env obj a t = (t1, .ok ())) (h : Reordered A YA B YB CA CB s1 t1) :
    SameRun A YA B YB (runOptimization env a fuel s) (runOptimization env a fuel t) ∧
    (∃ C, (runOptimization env a fuel s).1.world.calls = CA ++ C ∧
      (runOptimization env a fuel t).1.world.calls = CB ++ C) ∧
    (runOptimization env a fuel s).1.world.ticks = (runOptimization env a fuel t).1.world.ticks := by
  unfold runOptimization
  rw [hobj]
  simp only [hs, ht]
  obtain ⟨h1, h2⟩ := boLoop_reorder (obj := obj) (mi := a.limits.1) (mt := a.limits.2) ho hp hA hok hc he fuel h
  generalize boLoop env obj a.limits.1 a.limits.2 a.eps fuel s1 = u at h1 h2
  generalize boLoop env obj a.limits.1 a.limits.2 a.eps fuel t1 = v at h1 h2
  obtain ⟨s2, r⟩ := u
  obtain ⟨t2, r'⟩ := v
  simp only at h1 h2
  subst h1
  obtain ⟨N, YN, hX, hX', hY, hY', hl⟩ := h2.data
  cases r with
  | raised e =>
    exact ⟨⟨rfl, ⟨N, YN, hX, hX', hY, hY'⟩, h2.numAcq, h2.cost, h2.params, h2.cumTime, by simp⟩, h2.calls, h2.ticks⟩
  | running =>
    exact ⟨⟨rfl, ⟨N, YN, hX, hX', hY, hY'⟩, h2.numAcq, h2.cost, h2.params, h2.cumTime, by simp⟩, h2.calls, h2.ticks⟩
  | done why =>
    obtain ⟨r, r', e1, e2, e3⟩ := sameResults hp hA hl
    simp only [hY, hY', hX, hX', e1, e2]
    exact ⟨⟨rfl, ⟨N, YN, rfl, rfl, rfl, rfl⟩, h2.numAcq, h2.cost, h2.params, h2.cumTime,
      fun _ _ => ⟨_, _, r, r', rfl, rfl, rfl, rfl, e3⟩⟩, h2.calls, h2.ticks⟩

/-- **C149** (partial: the last two initial locations are the same in both orders, or the comparison of the last two
locations is switched off by a negative `eps`; the initial locations can be encoded). Two new objects that are given the
same observations in another order make the same run: they end in the same way, evaluate the objective at the same
locations in the same order and with the same results (and read the clock as often), have the same model parameters, need
the same time, and report the same optimum; the location of the optimum is the same unless the minimum is attained at two
locations; and the best values agree from the last initial observation on. -/
theorem C149_run_partial (ho : Orderless env ev deDup) (hp : SamePairs A YA B YB) (hA : A ≠ []) {M : Mat}
    (hok : env.sp.unzipInputs A = .ok M) (hobj : env.obj ≠ none) (cost : CostArg) (a : RunArgs)
    (he : StopAlike a.eps A B) (fuel : Nat) :
    SameRun A YA B YB (runOptimization env a fuel (boInit A (some YA) cost))
        (runOptimization env a fuel (boInit B (some YB) cost)) ∧
      (runOptimization env a fuel (boInit A (some YA) cost)).1.world =
        (runOptimization env a fuel (boInit B (some YB) cost)).1.world := by
  obtain ⟨obj, hobj⟩ := Option.ne_none_iff_exists'.1 hobj
  obtain ⟨h1, ⟨C, h2, h3⟩, h4⟩ := finish_reorder (CA := []) (CB := []) ho hp hA hok rfl hobj a he fuel
    (s := boInit A (some YA) cost) (t := boInit B (some YB) cost) rfl rfl
    { data := ⟨[], [], by simp [boInit], by simp [boInit], by simp [boInit], by simp [boInit], by simp⟩
      calls := ⟨[], rfl, rfl⟩
      context := rfl
      numAcq := rfl
      params := rfl
      cost := rfl
      timeZero := rfl
      cumTime := rfl
      ticks := rfl
      seen := rfl }
  refine ⟨h1, ?_⟩
  generalize (runOptimization env a fuel (boInit A (some YA) cost)).1.world = w at h2 h4
  generalize (runOptimization env a fuel (boInit B (some YB) cost)).1.world = v at h3 h4
  cases w
  cases v
  simp only at h2 h3 h4
  rw [h2, h3, h4]

theorem evalFunc_all {f : Vec → Py ℚ} {g : Vec → ℚ} {clock : Nat → ℚ} {xs : Mat} (h : ∀ x ∈ xs, f x = .ok (g x)) (w : World) :
    ∃ ts, evalFunc (fun _ x => f x) clock xs w =
      ({ calls := w.calls ++ xs.map fun x => (x, .ok (g x)), ticks := w.ticks + 2 * xs.length }, .ok (xs.map g, ts)) := by
  induction xs generalizing w with
  | nil => exact ⟨[], by simp [evalFunc]⟩
  | cons x xs ih =>
    obtain ⟨ts, hts⟩ := ih (fun z hz => h z (by simp [hz])) { calls := w.calls ++ [(x, .ok (g x))], ticks := w.ticks + 2 }
    refine ⟨(clock (w.ticks + 1) - clock w.ticks) :: ts, ?_⟩
    unfold evalFunc
    rw [h x (by simp)]
    simp only [hts, List.map_cons, List.append_assoc, List.cons_append, List.nil_append, List.length_cons, Prod.mk.injEq,
      World.mk.injEq, and_true, true_and]
    omega

/-- **C149** (partial as `C149_run_partial`; the cost of evaluations is not modelled). The same for two objects that
evaluate the same initial locations in another order, if the value of the objective at a location does not depend on the
history: the evaluations after the initial ones are the same. -/
theorem C149_unevaluated_partial (ho : Orderless env ev deDup) {f : Vec → Py ℚ} {g : Vec → ℚ}
    (hobj : env.obj = some fun _ x => f x) (hf : ∀ x ∈ A, f x = .ok (g x)) (hp : A.Perm B) (hA : A ≠ []) {M : Mat}
    (hok : env.sp.unzipInputs A = .ok M) (cost : CostArg) (hk : (costModelInit cost).kind ≠ .evaluationTime) (a : RunArgs)
    (he : StopAlike a.eps A B) (fuel : Nat) :
    SameRun A (A.map g) B (B.map g) (runOptimization env a fuel (boInit A none cost))
        (runOptimization env a fuel (boInit B none cost)) ∧
      ∃ C, (runOptimization env a fuel (boInit A none cost)).1.world.calls = (A.map fun x => (x, .ok (g x))) ++ C ∧
        (runOptimization env a fuel (boInit B none cost)).1.world.calls = (B.map fun x => (x, .ok (g x))) ++ C := by
  have hpairs : SamePairs A (A.map g) B (B.map g) := by
    refine ⟨by simp, by simp, ?_⟩
    have hz : ∀ L : Mat, L.zip (L.map g) = L.map fun x => (x, g x) := by
      intro L
      induction L with
      | nil => rfl
      | cons x L ih => simp [ih]
    rw [hz, hz]
    exact hp.map _
  have hB : ∀ x ∈ B, f x = .ok (g x) := fun x hx => hf x (hp.mem_iff.2 hx)
  have start : ∀ L : Mat, (∀ x ∈ L, f x = .ok (g x)) → runStart env (fun _ x => f x) a (boInit L none cost) =
      ({ X := L, Y := some (L.map g), context := a.context, numAcq := 0, params := none, cost := costModelInit cost,
         timeZero := env.clock (2 * L.length), cumTime := 0, results := none,
         world := { calls := L.map fun x => (x, .ok (g x)), ticks := 2 * L.length + 1 }, fits := [] }, .ok ()) := by
    intro L hL
    obtain ⟨ts, hts⟩ := evalFunc_all (clock := env.clock) hL { calls := [], ticks := 0 }
    unfold runStart boInit
    simp only [hts, if_neg hk, List.nil_append, Nat.zero_add]
  obtain ⟨h1, h2, -⟩ := finish_reorder (CA := A.map fun x => (x, .ok (g x))) (CB := B.map fun x => (x, .ok (g x))) ho hpairs
    hA hok (by simp [hp.length_eq]) hobj a he fuel (start A hf) (start B hB)
    { data := ⟨[], [], by simp, by simp, by simp, by simp, by simp⟩
      calls := ⟨[], by simp, by simp⟩
      context := rfl
      numAcq := rfl
      params := rfl
      cost := rfl
      timeZero := by simp only [hp.length_eq]
      cumTime := rfl
      ticks := by simp only [hp.length_eq]
      seen := rfl }
  exact ⟨h1, h2⟩

/-- **C149 (suggestions).** The next locations that are suggested do not depend on the order of the observations: here the
last two locations play no role. -/
theorem C149_suggest (ho : Orderless env ev deDup) (hp : SamePairs A YA B YB) (hA : A ≠ []) {M : Mat}
    (hok : env.sp.unzipInputs A = .ok M) (cost : CostArg) (context : Option Context) (pending ignored : Option Mat) :
    (suggestNext env context pending ignored (boInit A (some YA) cost)).2 =
      (suggestNext env context pending ignored (boInit B (some YB) cost)).2 := by
  have h0 : Reordered A YA B YB [] [] { boInit A (some YA) cost with params := none, numAcq := 0, context := context }
      { boInit B (some YB) cost with params := none, numAcq := 0, context := context } :=
    { data := ⟨[], [], by simp [boInit], by simp [boInit], by simp [boInit], by simp [boInit], by simp⟩
      calls := ⟨[], rfl, rfl⟩
      context := rfl
      numAcq := rfl
      params := rfl
      cost := rfl
      timeZero := rfl
      cumTime := rfl
      ticks := rfl
      seen := rfl }
  obtain ⟨h1, h2⟩ := updateModel_reorder ho hp hA hok h0
  unfold suggestNext
  simp only
  rcases e1 : updateModel env { boInit A (some YA) cost with params := none, numAcq := 0, context := context } with ⟨s, r⟩
  rcases e2 : updateModel env { boInit B (some YB) cost with params := none, numAcq := 0, context := context } with ⟨t, r'⟩
  rw [e1, e2] at h1 h2
  simp only at h1 h2
  subst h1
  cases r with
  | error e => rfl
  | ok u => exact suggest_reorder ho hp h2 pending ignored

end

/-! ## The hypotheses are met by exact Gaussian process regression and by `normalize` -/

theorem meanR_perm {Y Y' : List ℝ} (h : Y.Perm Y') : meanR Y = meanR Y' := by
  unfold meanR
  rw [h.sum_eq, h.length_eq]

theorem stdR_perm {Y Y' : List ℝ} (h : Y.Perm Y') : stdR Y = stdR Y' := by
  unfold stdR
  rw [meanR_perm h, (h.map _).sum_eq, h.length_eq]

theorem minR_perm {Y Y' : List ℝ} (h : Y.Perm Y') (hne : Y ≠ []) : minR Y = minR Y' := by
  have hne' : Y' ≠ [] := fun h0 => hne (by rw [h0] at h; exact h.eq_nil)
  obtain ⟨a1, a2⟩ := minR_spec hne
  obtain ⟨b1, b2⟩ := minR_spec hne'
  exact le_antisymm (a2 _ (h.mem_iff.2 b1)) (b2 _ (h.mem_iff.1 a1))

theorem maxR_perm {Y Y' : List ℝ} (h : Y.Perm Y') (hne : Y ≠ []) : maxR Y = maxR Y' := by
  have hne' : Y' ≠ [] := fun h0 => hne (by rw [h0] at h; exact h.eq_nil)
  obtain ⟨a1, a2⟩ := maxR_spec hne
  obtain ⟨b1, b2⟩ := maxR_spec hne'
  exact le_antisymm (b2 _ (h.mem_iff.1 a1)) (a2 _ (h.mem_iff.2 b1))

/-- **C149 (normalization).** Normalizing values in another order gives every value the same normalized value (or raises
the same exception). -/
theorem C149_normalize (shape : List Nat) {Y Y' : List ℝ} (h : Y.Perm Y') (type : String) :
    (∃ e, normalize shape Y type = .error e ∧ normalize shape Y' type = .error e) ∨
    ∃ g : ℝ → ℝ, normalize shape Y type = .ok (Y.map g) ∧ normalize shape Y' type = .ok (Y'.map g) := by
  have hnil : Y = [] ↔ Y' = [] := ⟨fun h0 => by rw [h0] at h; exact h.nil_eq.symm, fun h0 => by rw [h0] at h; exact h.eq_nil⟩
  unfold normalize
  rw [← stdR_perm h, ← meanR_perm h]
  by_cases h0 : shape = [] ∨ Y = []
  · rw [if_pos h0, if_pos (by rw [← hnil]; exact h0)]
    exact Or.inl ⟨_, rfl, rfl⟩
  · have h0' : ¬ (shape = [] ∨ Y' = []) := by rw [← hnil]; exact h0
    rw [if_neg h0, if_neg h0']
    have hne : Y ≠ [] := fun h1 => h0 (Or.inr h1)
    rw [← minR_perm h hne, ← maxR_perm h hne]
    split_ifs
    · exact Or.inl ⟨_, rfl, rfl⟩
    · exact Or.inr ⟨fun y => (y - meanR Y) / stdR Y, by simp, by simp⟩
    · exact Or.inr ⟨fun y => y - meanR Y, by simp, by simp⟩
    · by_cases hr : 0 < maxR Y - minR Y
      · simp only [if_pos hr, List.map_map]
        exact Or.inr ⟨_, rfl, rfl⟩
      · simp only [if_neg hr]
        exact Or.inr ⟨_, rfl, rfl⟩
    · exact Or.inl ⟨_, rfl, rfl⟩

/-- Mean of exact Gaussian process regression with kernel `k` and noise `v`, at `x` given observations indexed by `ι`. -/
noncomputable def gpMean {ι X : Type} [Fintype ι] [DecidableEq ι] (k : X → X → ℝ) (v : ℝ) (loc : ι → X) (y : ι → ℝ)
    (x : X) : ℝ :=
  dotProduct (fun i => k x (loc i)) (((Matrix.of fun i j => k (loc i) (loc j)) + v • (1 : Matrix ι ι ℝ))⁻¹.mulVec y)

/-- Covariance of exact Gaussian process regression. -/
noncomputable def gpCov {ι X : Type} [Fintype ι] [DecidableEq ι] (k : X → X → ℝ) (v : ℝ) (loc : ι → X) (x z : X) : ℝ :=
  k x z - dotProduct (fun i => k x (loc i))
    (((Matrix.of fun i j => k (loc i) (loc j)) + v • (1 : Matrix ι ι ℝ))⁻¹.mulVec fun i => k (loc i) z)

theorem gp_inverse {ι κ X : Type} [Fintype ι] [DecidableEq ι] [Fintype κ] [DecidableEq κ] (e : κ ≃ ι) (k : X → X → ℝ)
    (v : ℝ) (loc : ι → X) :
    ((Matrix.of fun i j => k (loc (e i)) (loc (e j))) + v • (1 : Matrix κ κ ℝ))⁻¹ =
      (((Matrix.of fun i j => k (loc i) (loc j)) + v • (1 : Matrix ι ι ℝ))⁻¹).submatrix e e := by
  rw [← Matrix.inv_submatrix_equiv]
  congr 1
  ext i j
  simp [Matrix.one_apply]

/-- **C149 (regression).** The mean and the covariance of exact Gaussian process regression do not depend on the order of
the observations. -/
theorem C149_regression {ι κ X : Type} [Fintype ι] [DecidableEq ι] [Fintype κ] [DecidableEq κ] (e : κ ≃ ι)
    (k : X → X → ℝ) (v : ℝ) (loc : ι → X) (y : ι → ℝ) (x z : X) :
    gpMean k v (loc ∘ e) (y ∘ e) x = gpMean k v loc y x ∧ gpCov k v (loc ∘ e) x z = gpCov k v loc x z := by
  have key : ∀ a b : ι → ℝ, dotProduct (a ∘ e)
      ((((Matrix.of fun i j => k (loc i) (loc j)) + v • (1 : Matrix ι ι ℝ))⁻¹.submatrix e e).mulVec (b ∘ e)) =
      dotProduct a (((Matrix.of fun i j => k (loc i) (loc j)) + v • (1 : Matrix ι ι ℝ))⁻¹.mulVec b) := by
    intro a b
    rw [Matrix.submatrix_mulVec_equiv]
    simp only [Function.comp_assoc, Equiv.self_comp_symm, Function.comp_id]
    rw [comp_equiv_dotProduct_comp_equiv]
  constructor
  · unfold gpMean
    rw [show ((Matrix.of fun i j => k ((loc ∘ e) i) ((loc ∘ e) j)) + v • (1 : Matrix κ κ ℝ))⁻¹ = _ from gp_inverse e k v loc]
    exact key (fun i => k x (loc i)) y
  · unfold gpCov
    rw [show ((Matrix.of fun i j => k ((loc ∘ e) i) ((loc ∘ e) j)) + v • (1 : Matrix κ κ ℝ))⁻¹ = _ from gp_inverse e k v loc]
    exact congrArg (k x z - ·) (key (fun i => k x (loc i)) fun i => k (loc i) z)

/-! ## Examples and exceptions -/

/-- Distance to the centre of the observed locations, weighted by the observed values: an acquisition that depends on the
data the model was fitted to last. -/
def exCentre (l : List (Nat × Multiset (Vec × ℚ))) (x : Vec) : ℚ :=
  match l.getLast? with
  | none => 0
  | some p => |x.headD 0 - (p.2.map fun q => q.1.headD 0 * q.2).sum / (p.2.map Prod.snd).sum|

/-- Sampled locations, the best of which is suggested. -/
def exBestSample (l : List (Nat × Multiset (Vec × ℚ))) : EvalEnv :=
  { exEnv with
    op := { numSamplesObjective := 7, numSamplesThompson := 4, numAnchor := 1 }
    oracle := ⟨{ exAcq with opt := fun _ _ x => .ok x }, { exAcq with opt := fun _ _ x => .ok x }⟩
    f := fun x => .ok (exCentre l x) }

/-- Suggestions by the acquisition `exCentre`; values are normalized by subtracting their sum; objective (x - 1/4)^2. -/
def exOrderlessBO (sp : Space) : BOEnv where
  sp := sp
  obj := some fun _ x => .ok ((x.headD 0 - 1/4) ^ 2)
  clock := fun n => n
  fit := fun _ _ _ => .ok ()
  params := fun s => .ok [(s.seen.map fun p => (p.2.map Prod.snd).sum).sum]
  costFit := fun _ => .ok ()
  lg := id
  suggest := stdSuggest sp .sequential (fun s => exBestSample s.seen) true
  normalizeY := true
  normalize := fun Y => Y.map fun y => y + (Y : Multiset ℚ).sum
  interval := 1

theorem exOrderless (sp : Space) : Orderless (exOrderlessBO sp) .sequential true where
  fit := ⟨fun _ _ _ => .ok (), fun _ _ _ => rfl⟩
  params := ⟨fun l => .ok [(l.map fun p => (p.2.map Prod.snd).sum).sum], fun _ => rfl⟩
  costFit := ⟨fun _ => .ok (), fun _ => rfl⟩
  normalize := ⟨fun m y => y + m.sum, fun _ => rfl⟩
  suggest := ⟨fun _ _ _ _ l => exBestSample l, rfl⟩

/-- Two iterations from three observations in two orders: the same two locations are evaluated. -/
example : ((designSpace exLine none).map fun sp =>
      let R := runOptimization (exOrderlessBO sp) { maxIter := some (.fin 2), eps := -1 } 10
        (boInit [[0], [1/2], [1]] (some [1, 2, 3]) .none)
      (R.2, R.1.X, R.1.Y)) = .ok (.done .limit, [[0], [1/2], [1], [1/3], [1/4]], some [1, 2, 3, 1/144, 0]) ∧
    ((designSpace exLine none).map fun sp =>
      let R := runOptimization (exOrderlessBO sp) { maxIter := some (.fin 2), eps := -1 } 10
        (boInit [[1], [1/2], [0]] (some [3, 2, 1]) .none)
      (R.2, R.1.X, R.1.Y)) = .ok (.done .limit, [[1], [1/2], [0], [1/3], [1/4]], some [3, 2, 1, 1/144, 0]) := by
  constructor <;> decide +kernel

/-- The hypotheses of `C149_run_partial` are met. -/
example : SamePairs [[0], [1/2], [1]] [1, 2, 3] [[1], [1/2], [0]] [3, 2, 1] ∧
    ∃ sp M, designSpace exLine none = .ok sp ∧ sp.unzipInputs [[0], [1/2], [1]] = .ok M :=
  ⟨⟨rfl, rfl, by decide +kernel⟩, _, _, rfl, rfl⟩

example : StopAlike (-1) [[0], [1/2], [1]] [[1], [1/2], [0]] ∧
    StopAlike (1/10^8) [[0], [1/3], [1/2], [1]] [[1/3], [0], [1/2], [1]] :=
  ⟨Or.inl (by norm_num), Or.inr rfl⟩

/-- **C149 fails** with the default `eps` if an observation is repeated: with the repetition at the end no location is
evaluated at all, with another order two are. -/
theorem C149_repetition_counterexample : ∃ sp, designSpace exLine none = .ok sp ∧
    SamePairs [[0], [1], [1]] [1, 3, 2] [[1], [0], [1]] [3, 1, 2] ∧ Orderless (exOrderlessBO sp) .sequential true ∧
    (let R := runOptimization (exOrderlessBO sp) { maxIter := some (.fin 2) } 10
      (boInit [[0], [1], [1]] (some [1, 3, 2]) .none)
     R.2 = .done .limit ∧ R.1.X = [[0], [1], [1]] ∧ R.1.results.map Results.fxOpt = some 1) ∧
    (let R := runOptimization (exOrderlessBO sp) { maxIter := some (.fin 2) } 10
      (boInit [[1], [0], [1]] (some [3, 1, 2]) .none)
     R.2 = .done .limit ∧ R.1.X = [[1], [0], [1], [1/2], [1/3]] ∧ R.1.results.map Results.fxOpt = some (1/144)) := by
  refine ⟨_, rfl, ⟨rfl, rfl, by decide +kernel⟩, exOrderless _, ?_, ?_⟩
  · decide +kernel
  · decide +kernel

/-- **C149 fails** for the location of the optimum if the minimum is attained twice: the first one is reported. -/
theorem C149_tie_counterexample : ∃ sp, designSpace exLine none = .ok sp ∧
    SamePairs [[0], [1]] [2, 2] [[1], [0]] [2, 2] ∧ Orderless (exOrderlessBO sp) .sequential true ∧
    (runOptimization (exOrderlessBO sp) { eps := -1 } 10 (boInit [[0], [1]] (some [2, 2]) .none)).1.results.map
      Results.xOpt = some [0] ∧
    (runOptimization (exOrderlessBO sp) { eps := -1 } 10 (boInit [[1], [0]] (some [2, 2]) .none)).1.results.map
      Results.xOpt = some [1] := by
  refine ⟨_, rfl, ⟨rfl, rfl, by decide +kernel⟩, exOrderless _, ?_, ?_⟩
  · decide +kernel
  · decide +kernel

/-- Evaluated by the object itself, in two orders. -/
example : ((designSpace exLine none).map fun sp =>
      let R := runOptimization (exOrderlessBO sp) { maxIter := some (.fin 1), eps := -1 } 10
        (boInit [[0], [1/2], [1]] none .none)
      let R' := runOptimization (exOrderlessBO sp) { maxIter := some (.fin 1), eps := -1 } 10
        (boInit [[1], [0], [1/2]] none .none)
      (R.1.Y, R'.1.Y, R.1.X.drop 3 == R'.1.X.drop 3)) =
    .ok (some [1/16, 1/16, 9/16, 1/144], some [9/16, 1/16, 1/16, 1/144], true) := by decide +kernel

end GPyOpt.Props
