import Verif.Model.Memory
import Verif.Props.Records

/-!
# Arrays shared with the objective and with the caller (C123, C124)
-/

namespace GPyOpt.Props

/-- The objective as a function of its argument: what it writes is left out. -/
def WritingObj.outcome (obj : WritingObj) : Nat → Vec → Py ℚ := fun k x => (obj k x).2

/-! ## Evaluation -/

/-- The evaluation reads every row before it is written, and writes into its array only. -/
theorem memEval_spec (obj : WritingObj) (clock : Nat → ℚ) (a : Nat) :
    ∀ (is : List Nat) (h : Mem) (w : World), is.Nodup →
      (memEval obj clock a is h w).2
        = evalFunc (WritingObj.outcome obj) clock (is.map fun i => (h.get a).getD i []) w ∧
      (memEval obj clock a is h w).1.next = h.next ∧
      ∀ b, b ≠ a → (memEval obj clock a is h w).1.get b = h.get b
  | [], h, w, _ => ⟨rfl, rfl, fun _ _ => rfl⟩
  | i :: is, h, w, hn => by
    rw [List.nodup_cons] at hn
    set x := (h.get a).getD i [] with hx
    set h' := h.write a ((h.get a).set i (obj w.calls.length x).1) with hh
    have hframe : ∀ b, b ≠ a → h'.get b = h.get b := fun b hb => by
      rw [hh]
      exact Function.update_of_ne hb _ _
    have hrows : (is.map fun j => (h'.get a).getD j []) = is.map fun j => (h.get a).getD j [] := by
      refine List.map_congr_left fun j hj => ?_
      have hij : i ≠ j := fun e => hn.1 (e ▸ hj)
      rw [hh]
      simp [Mem.write, List.getElem?_set_ne hij]
    cases ho : (obj w.calls.length x).2 with
    | error e =>
      have e1 : memEval obj clock a (i :: is) h w
          = (h', { calls := w.calls ++ [(x, .error e)], ticks := w.ticks + 1 }, .error e) := by
        simp only [memEval, ← hx, ho, ← hh]
      rw [e1]
      refine ⟨?_, rfl, hframe⟩
      simp only [List.map_cons, evalFunc, WritingObj.outcome, ← hx, ho]
    | ok y =>
      obtain ⟨i1, i2, i3⟩ := memEval_spec obj clock a is h'
        { calls := w.calls ++ [(x, .ok y)], ticks := w.ticks + 2 } hn.2
      rw [hrows] at i1
      have e1 : memEval obj clock a (i :: is) h w
          = match memEval obj clock a is h' { calls := w.calls ++ [(x, .ok y)], ticks := w.ticks + 2 } with
            | (h'', w', .error e) => (h'', w', .error e)
            | (h'', w', .ok (ys, ts)) => (h'', w', .ok (y :: ys, (clock (w.ticks + 1) - clock w.ticks) :: ts)) := by
        simp only [memEval, ← hx, ho, ← hh]
        rfl
      have e2 : evalFunc (WritingObj.outcome obj) clock ((i :: is).map fun i => (h.get a).getD i []) w
          = match evalFunc (WritingObj.outcome obj) clock (is.map fun i => (h.get a).getD i [])
              { calls := w.calls ++ [(x, .ok y)], ticks := w.ticks + 2 } with
            | (w', .error e) => (w', .error e)
            | (w', .ok (ys, ts)) => (w', .ok (y :: ys, (clock (w.ticks + 1) - clock w.ticks) :: ts)) := by
        simp only [List.map_cons, evalFunc, WritingObj.outcome, ← hx, ho]
        rfl
      rw [e1, e2, ← i1]
      rcases hm : memEval obj clock a is h' { calls := w.calls ++ [(x, .ok y)], ticks := w.ticks + 2 } with
        ⟨h'', w', _ | ⟨ys, ts⟩⟩
      all_goals
        rw [hm] at i2 i3
        exact ⟨rfl, i2, fun b hb => (i3 b hb).trans (hframe b hb)⟩

theorem rows_of_range (A : Mat) : ((List.range A.length).map fun i => A.getD i []) = A := by
  refine List.ext_getElem (by simp) fun i h1 h2 => ?_
  simp [h2]

/-- All rows of an array. -/
theorem memEval_all (obj : WritingObj) (clock : Nat → ℚ) (a : Nat) (h : Mem) (w : World) :
    (memEval obj clock a (List.range (h.get a).length) h w).2
        = evalFunc (WritingObj.outcome obj) clock (h.get a) w ∧
      (memEval obj clock a (List.range (h.get a).length) h w).1.next = h.next ∧
      ∀ b, b ≠ a → (memEval obj clock a (List.range (h.get a).length) h w).1.get b = h.get b := by
  have := memEval_spec obj clock a (List.range (h.get a).length) h w List.nodup_range
  rwa [rows_of_range] at this

/-- What an evaluation leaves in the array: every row that was evaluated is what the objective left there. -/
theorem memEval_left (obj : WritingObj) (clock : Nat → ℚ) (a : Nat) :
    ∀ (is : List Nat) (h : Mem) (w : World) (r : Vec × Vec), is.Nodup →
      (memEval obj clock a is h w).2.2 = .ok r →
      ((memEval obj clock a is h w).1.get a).length = (h.get a).length ∧
      (∀ j, j ∉ is → ((memEval obj clock a is h w).1.get a)[j]? = (h.get a)[j]?) ∧
      ∀ (p : Nat) (hp : p < is.length) (x : Vec), (h.get a)[is[p]]? = some x →
        ((memEval obj clock a is h w).1.get a)[is[p]]? = some (obj (w.calls.length + p) x).1
  | [], h, w, r, _, _ => ⟨rfl, fun _ _ => rfl, fun p hp => by simp at hp⟩
  | i :: is, h, w, r, hn, hr => by
    rw [List.nodup_cons] at hn
    simp only [memEval] at hr ⊢
    set x := (h.get a).getD i [] with hx
    set h' := h.write a ((h.get a).set i (obj w.calls.length x).1) with hh
    have hha : h'.get a = (h.get a).set i (obj w.calls.length x).1 := by
      rw [hh]
      exact Function.update_self _ _ _
    cases ho : (obj w.calls.length x).2 with
    | error e =>
      rw [ho] at hr
      cases hr
    | ok y =>
      rw [ho] at hr
      dsimp only at hr ⊢
      set w' : World := { calls := w.calls ++ [(x, .ok y)], ticks := w.ticks + 2 } with hw'
      rcases hm : memEval obj clock a is h' w' with ⟨h'', w'', e | r'⟩
      · rw [hm] at hr
        cases hr
      obtain ⟨i1, i2, i3⟩ := memEval_left obj clock a is h' w' r' hn.2 (by rw [hm])
      rw [hm] at i1 i2 i3
      dsimp only at i1 i2 i3 ⊢
      refine ⟨?_, ?_, ?_⟩
      · rw [i1, hha, List.length_set]
      · intro j hj
        rw [List.mem_cons, not_or] at hj
        rw [i2 j hj.2, hha, List.getElem?_set_ne (Ne.symm hj.1)]
      · intro p hp z hz
        cases p with
        | zero =>
          simp only [List.getElem_cons_zero] at hz ⊢
          have hxz : x = z := by
            rw [hx, List.getD_eq_getElem?_getD, hz]
            rfl
          have hlt : i < (h.get a).length := (List.getElem?_eq_some_iff.1 hz).1
          rw [i2 i hn.1, hha, List.getElem?_set_self hlt, ← hxz]
          rfl
        | succ q =>
          have hq : q < is.length := by simpa using hp
          simp only [List.getElem_cons_succ] at hz ⊢
          have hne : i ≠ is[q] := fun e => hn.1 (e ▸ List.getElem_mem hq)
          have := i3 q hq z (by rw [hha, List.getElem?_set_ne hne]; exact hz)
          rw [this]
          simp only [hw', List.length_append, List.length_cons, List.length_nil]
          congr 3
          omega

/-- All rows: the array afterwards. -/
theorem memEval_left_all (obj : WritingObj) (clock : Nat → ℚ) (a : Nat) (h : Mem) (w : World) (r : Vec × Vec)
    (hr : (memEval obj clock a (List.range (h.get a).length) h w).2.2 = .ok r) :
    (memEval obj clock a (List.range (h.get a).length) h w).1.get a
      = (h.get a).mapIdx fun i x => (obj (w.calls.length + i) x).1 := by
  obtain ⟨h1, _, h3⟩ := memEval_left obj clock a _ h w r List.nodup_range hr
  refine List.ext_getElem? fun i => ?_
  by_cases hi : i < (h.get a).length
  · have hx : (h.get a)[i]? = some (h.get a)[i] := List.getElem?_eq_getElem hi
    have := h3 i (by simpa using hi) (h.get a)[i] (by simp)
    rw [List.getElem_range] at this
    rw [this, List.getElem?_mapIdx, hx]
    rfl
  · rw [List.getElem?_eq_none (by omega), List.getElem?_eq_none (by simpa using hi)]

/-- An objective that does not write leaves the array as it is. -/
theorem memEval_pure {obj : WritingObj} (hp : ∀ k x, (obj k x).1 = x) (clock : Nat → ℚ) (a : Nat) :
    ∀ (is : List Nat) (h : Mem) (w : World), (∀ i ∈ is, i < (h.get a).length) →
      (memEval obj clock a is h w).1.get a = h.get a
  | [], _, _, _ => rfl
  | i :: is, h, w, hi => by
    have hw : h.write a ((h.get a).set i (obj w.calls.length ((h.get a).getD i [])).1) = h := by
      have hl : i < (h.get a).length := hi i (by simp)
      rw [hp]
      have : (h.get a).set i ((h.get a).getD i []) = h.get a := by
        rw [List.getD_eq_getElem?_getD, List.getElem?_eq_getElem hl]
        exact List.set_getElem_self hl
      rw [this]
      simp [Mem.write]
    simp only [memEval, hw]
    cases (obj w.calls.length ((h.get a).getD i [])).2 with
    | error e => rfl
    | ok y =>
      have := memEval_pure hp clock a is h
        { calls := w.calls ++ [((h.get a).getD i [], .ok y)], ticks := w.ticks + 2 } fun j hj => hi j (by simp [hj])
      dsimp only
      rcases hm : memEval obj clock a is h
        { calls := w.calls ++ [((h.get a).getD i [], .ok y)], ticks := w.ticks + 2 } with ⟨h'', w', e | ⟨ys, ts⟩⟩
      all_goals
        rw [hm] at this
        exact this

theorem flatten_asColumn (y : Vec) : (asColumn y).flatten = y := by
  induction y with
  | nil => rfl
  | cons v y ih => simpa [asColumn] using ih

/-! ## The loop -/

/-- The arrays of the object exist. -/
structure _root_.GPyOpt.MemState.Ok (o : MemState) : Prop where
  x : o.X < o.mem.next
  y : ∀ a, o.Y = some a → a < o.mem.next

/-- Nothing the objective writes reaches the cost model: that model does not record evaluation times, or the objective
does not write. -/
def Harmless (obj : WritingObj) (s : BOState) : Prop :=
  s.cost.kind ≠ .evaluationTime ∨ ∀ k x, (obj k x).1 = x

theorem update_noTimes {c : CostModel} (h : c.kind ≠ .evaluationTime) (lg : ℚ → ℚ) (fit : Py Unit) (x : Mat)
    (t : CostEvals) : c.update lg fit x t = (c, .ok ()) := by
  unfold CostModel.update
  split
  · rename_i hk
    exact absurd hk h
  · rfl

theorem update_kind (c : CostModel) (lg : ℚ → ℚ) (fit : Py Unit) (x : Mat) (t : CostEvals) :
    (c.update lg fit x t).1.kind = c.kind := by
  unfold CostModel.update
  repeat' split
  all_goals rfl

theorem Harmless.of_kind {obj : WritingObj} {s s' : BOState} (h : Harmless obj s) (hk : s'.cost.kind = s.cost.kind) :
    Harmless obj s' := by
  unfold Harmless at h ⊢
  rwa [hk]

/-- One evaluation in memory and in `Model/BO`. -/
theorem memEvaluateObjective_sim (env : BOEnv) (obj : WritingObj) (o : MemState) (a : Nat) (ho : o.Ok)
    (hx : o.X ≠ a) (hy : ∀ b, o.Y = some b → b ≠ a) (hc : Harmless obj o.rest) :
    ((memEvaluateObjective env obj o a).1.view, (memEvaluateObjective env obj o a).2)
        = evaluateObjective env (WritingObj.outcome obj) o.view (o.mem.get a) ∧
      (memEvaluateObjective env obj o a).1.Ok ∧
      (memEvaluateObjective env obj o a).1.rest.cost.kind = o.rest.cost.kind ∧
      o.mem.next ≤ (memEvaluateObjective env obj o a).1.mem.next ∧
      (∀ b, b < o.mem.next → b ≠ a → (memEvaluateObjective env obj o a).1.mem.get b = o.mem.get b) ∧
      (memEvaluateObjective env obj o a).1.X = o.X ∧
      (∀ r, (memEvaluateObjective env obj o a).2 = .ok r →
        ∃ b, (memEvaluateObjective env obj o a).1.Y = some b ∧ o.mem.next ≤ b) := by
  obtain ⟨e1, e2, e3⟩ := memEval_all obj env.clock a o.mem o.rest.world
  have e4 : (∀ k x, (obj k x).1 = x) → _ := fun hp =>
    memEval_pure hp env.clock a (List.range (o.mem.get a).length) o.mem o.rest.world fun i hi => List.mem_range.1 hi
  unfold memEvaluateObjective evaluateObjective
  have hw : o.view.world = o.rest.world := rfl
  have hk : o.view.cost = o.rest.cost := rfl
  rw [hw, hk]
  rcases hm : memEval obj env.clock a (List.range (o.mem.get a).length) o.mem o.rest.world with ⟨h, w, e | ⟨ys, ts⟩⟩
  · rw [hm] at e1 e2 e3
    dsimp only at e1 e2 e3
    rw [← e1]
    refine ⟨?_, ⟨by change o.X < h.next; rw [e2]; exact ho.x, fun b hb => ?_⟩, rfl, e2.ge, fun b _ hb => e3 b hb, rfl,
      fun r hr => by cases hr⟩
    · simp only [MemState.view]
      congr 2
      · exact e3 _ hx
      · cases hY : o.Y with
        | none => rfl
        | some b => simp only [Option.map_some, e3 b (hy b hY)]
    · change b < h.next
      rw [e2]
      exact ho.y b hb
  · rw [hm] at e1 e2 e3 e4
    dsimp only at e1 e2 e3 e4
    rw [← e1]
    have hup : o.rest.cost.update env.lg (env.costFit o.view) (h.get a) (.list ts)
        = o.rest.cost.update env.lg (env.costFit o.view) (o.mem.get a) (.list ts) := by
      rcases hc with hc | hc
      · rw [update_noTimes hc, update_noTimes hc]
      · rw [e4 hc]
    have hkind := update_kind o.rest.cost env.lg (env.costFit o.view) (o.mem.get a) (.list ts)
    simp only [hup]
    rcases hu : o.rest.cost.update env.lg (env.costFit o.view) (o.mem.get a) (.list ts) with ⟨c, e | ⟨⟩⟩
    · rw [hu] at hkind
      refine ⟨?_, ⟨by change o.X < h.next; rw [e2]; exact ho.x, fun b hb => ?_⟩, hkind, e2.ge, fun b _ hb => e3 b hb, rfl,
        fun r hr => by cases hr⟩
      · simp only [MemState.view, e3 _ hx]
        cases hY : o.Y with
        | none => rfl
        | some b => simp only [Option.map_some, e3 b (hy b hY)]
      · change b < h.next
        rw [e2]
        exact ho.y b hb
    rw [hu] at hkind
    cases hY : o.Y with
    | none =>
      have hv : o.view.Y = none := by simp [MemState.view, hY]
      rw [hv]
      refine ⟨?_, ⟨by change o.X < h.next; rw [e2]; exact ho.x, fun b hb => ?_⟩, hkind, e2.ge, fun b _ hb => e3 b hb, rfl,
        fun r hr => by cases hr⟩
      · simp only [MemState.view, hY, Option.map_none, e3 _ hx]
      · cases hb
    | some y =>
      have hv : o.view.Y = some (o.mem.get y).flatten := by simp [MemState.view, hY]
      have hyl := ho.y y hY
      have hya := hy y hY
      rw [hv]
      refine ⟨?_, ⟨?_, ?_⟩, hkind, ?_, ?_, rfl, ?_⟩
      · have hxn : o.X ≠ h.next := by rw [e2]; exact ho.x.ne
        simp only [MemState.view, Mem.alloc, Option.map_some, Function.update_self, flatten_asColumn, e3 y hya,
          Function.update_of_ne hxn, e3 _ hx]
      · change o.X < h.next + 1
        rw [e2]
        exact ho.x.trans (Nat.lt_succ_self _)
      · intro b hb
        cases hb
        exact Nat.lt_succ_self _
      · change o.mem.next ≤ h.next + 1
        rw [e2]
        exact Nat.le_succ _
      · intro b hb hba
        change Function.update h.get h.next _ b = _
        rw [Function.update_of_ne (by rw [e2]; exact hb.ne), e3 b hba]
      · intro r _
        exact ⟨h.next, rfl, e2.ge⟩

theorem updateModel_keeps (env : BOEnv) (s : BOState) :
    (updateModel env s).1.X = s.X ∧ (updateModel env s).1.Y = s.Y ∧ (updateModel env s).1.cost = s.cost := by
  have hp : ∀ s : BOState, (saveParams env s).1.X = s.X ∧ (saveParams env s).1.Y = s.Y ∧
      (saveParams env s).1.cost = s.cost := by
    intro s
    unfold saveParams
    repeat' split
    all_goals exact ⟨rfl, rfl, rfl⟩
  unfold updateModel
  repeat' split
  all_goals first | exact ⟨rfl, rfl, rfl⟩ | exact hp _

/-- The object with other attributes that agree on the data looks as before. -/
theorem view_rest {o : MemState} {s : BOState} (hX : s.X = o.view.X) (hY : s.Y = o.view.Y) :
    ({ o with rest := s } : MemState).view = s := by
  change { s with X := o.view.X, Y := o.view.Y } = s
  rw [← hX, ← hY]

/-- What a step in memory preserves: the arrays that existed are not written, and those of the object are old or new. -/
structure Frame (o o' : MemState) : Prop where
  ok : o'.Ok
  kind : o'.rest.cost.kind = o.rest.cost.kind
  next : o.mem.next ≤ o'.mem.next
  get : ∀ b, b < o.mem.next → o'.mem.get b = o.mem.get b
  x : o'.X = o.X ∨ o.mem.next ≤ o'.X
  y : o'.Y = o.Y ∨ ∃ b, o'.Y = some b ∧ o.mem.next ≤ b

theorem Frame.refl {o : MemState} (ho : o.Ok) : Frame o o :=
  ⟨ho, rfl, le_rfl, fun _ _ => rfl, .inl rfl, .inl rfl⟩

theorem Frame.trans {o p q : MemState} (h : Frame o p) (g : Frame p q) : Frame o q := by
  refine ⟨g.ok, g.kind.trans h.kind, h.next.trans g.next, fun b hb => ?_, ?_, ?_⟩
  · rw [g.get b (hb.trans_le h.next), h.get b hb]
  · rcases g.x with gx | gx
    · rw [gx]; exact h.x
    · exact .inr (h.next.trans gx)
  · rcases g.y with gy | ⟨b, gy, gb⟩
    · rw [gy]; exact h.y
    · exact .inr ⟨b, gy, h.next.trans gb⟩

/-- The round `Model/BO` sees. -/
def _root_.GPyOpt.MemRound.view : MemRound → Round
  | .next o => .next o.view
  | .stop o why => .stop o.view why
  | .raised o e => .raised o.view e

/-- The object after a round. -/
def _root_.GPyOpt.MemRound.obj : MemRound → MemState
  | .next o => o
  | .stop o _ => o
  | .raised o _ => o

/-- One round in memory and in `Model/BO`; after a full round both arrays are new. -/
theorem memRound_sim (env : BOEnv) (obj : WritingObj) (maxIter maxTime : Limit) (eps : ℚ) (o : MemState) (ho : o.Ok)
    (hc : Harmless obj o.rest) :
    (memRound env obj maxIter maxTime eps o).view = boRound env (WritingObj.outcome obj) maxIter maxTime eps o.view ∧
      Frame o (memRound env obj maxIter maxTime eps o).obj ∧
      ∀ p, memRound env obj maxIter maxTime eps o = .next p →
        o.mem.next ≤ p.X ∧ ∃ b, p.Y = some b ∧ o.mem.next ≤ b := by
  unfold memRound boRound
  have hct : o.view.cumTime = o.rest.cumTime := rfl
  rw [hct]
  by_cases ht : maxTime.exceeds o.rest.cumTime
  swap
  · rw [if_neg ht, if_neg ht]
    exact ⟨rfl, .refl ho, fun p hp => by cases hp⟩
  rw [if_pos ht, if_pos ht]
  obtain ⟨k1, k2, k3⟩ := updateModel_keeps env o.view
  rcases hu : updateModel env o.view with ⟨s1, r⟩
  rw [hu] at k1 k2 k3
  dsimp only at k1 k2 k3
  have hk1 : s1.cost.kind = o.rest.cost.kind := by
    rw [k3]
    rfl
  have hc1 : Harmless obj s1 := hc.of_kind hk1
  have hfr : Frame o { o with rest := s1 } := ⟨⟨ho.x, ho.y⟩, hk1, le_rfl, fun _ _ => rfl, .inl rfl, .inl rfl⟩
  have hv1 : ({ o with rest := s1 } : MemState).view = s1 := view_rest k1 k2
  rcases r with e | ⟨⟩
  · cases e
    all_goals
      refine ⟨?_, hfr, fun p hp => by cases hp⟩
      simp only [MemRound.view, hv1]
  dsimp only
  by_cases hs : ¬ maxIter.exceeds (s1.numAcq : ℚ) ∨ lastTwoClose eps s1.X
  · rw [if_pos hs, if_pos hs]
    refine ⟨?_, hfr, fun p hp => by cases hp⟩
    simp only [MemRound.view, hv1]
  rw [if_neg hs, if_neg hs]
  rcases hg : env.suggest s1 none none with e | m
  · refine ⟨?_, hfr, fun p hp => by cases hp⟩
    simp only [MemRound.view, hv1]
  dsimp only
  set a := o.mem.next with ha
  set h1 := (o.mem.alloc m).1 with hh1
  have h1a : h1.get a = m := by
    rw [hh1]
    exact Function.update_self _ _ _
  have h1b : ∀ b, b < a → h1.get b = o.mem.get b := fun b hb => by
    rw [hh1]
    exact Function.update_of_ne hb.ne _ _
  set h2 := (h1.alloc (h1.get o.X ++ h1.get a)).1 with hh2
  have h2x : h2.get (a + 1) = o.mem.get o.X ++ m := by
    rw [hh2]
    change Function.update h1.get (a + 1) _ (a + 1) = _
    rw [Function.update_self, h1a, h1b _ ho.x]
    rfl
  have h2b : ∀ b, b < a + 1 → h2.get b = h1.get b := fun b hb => by
    rw [hh2]
    exact Function.update_of_ne hb.ne _ _
  set o1 : MemState := { o with mem := h2, X := a + 1, rest := s1 } with ho1
  have hv2 : o1.view = { s1 with X := s1.X ++ m } := by
    have hY : (o1.Y.map fun y => (h2.get y).flatten) = s1.Y := by
      rw [k2]
      change (o.Y.map fun y => (h2.get y).flatten) = o.Y.map fun y => (o.mem.get y).flatten
      cases hY : o.Y with
      | none => rfl
      | some y =>
        have := ho.y y hY
        simp only [Option.map_some, h2b y (this.trans (Nat.lt_succ_self _)), h1b y this]
    have hX : h2.get (a + 1) = s1.X ++ m := by
      rw [h2x, k1]
      rfl
    change { s1 with X := h2.get (a + 1), Y := o1.Y.map fun y => (h2.get y).flatten } = { s1 with X := s1.X ++ m }
    rw [hX, hY]
  have ok1 : o1.Ok := by
    refine ⟨Nat.lt_succ_self _, fun y hy => ?_⟩
    have := ho.y y hy
    change y < a + 1 + 1
    omega
  obtain ⟨s, sok, sc, sn, sg, sx, sy⟩ := memEvaluateObjective_sim env obj o1 a ok1
    (by change a + 1 ≠ a; omega) (fun b hb => (ho.y b hb).ne) hc1
  have hm : o1.mem.get a = m := by
    change h2.get a = m
    rw [h2b a (Nat.lt_succ_self _), h1a]
  rw [hv2, hm] at s
  have hnx : o1.mem.next = a + 2 := rfl
  have hcall : memEvaluateObjective env obj { o with mem := (h1.alloc (h1.get o.X ++ h1.get a)).1
                                                     X := (h1.alloc (h1.get o.X ++ h1.get a)).2
                                                     rest := s1 } a = memEvaluateObjective env obj o1 a := rfl
  change MemRound.view (match memEvaluateObjective env obj o1 a with
      | (o2, .error e) => .raised o2 e
      | (o2, .ok ()) => .next { o2 with rest := { o2.rest with
              cumTime := env.clock o2.rest.world.ticks - o2.rest.timeZero
              world := { o2.rest.world with ticks := o2.rest.world.ticks + 1 }
              numAcq := o2.rest.numAcq + 1 } }) = _ ∧
    Frame o (MemRound.obj (match memEvaluateObjective env obj o1 a with
      | (o2, .error e) => .raised o2 e
      | (o2, .ok ()) => .next { o2 with rest := { o2.rest with
              cumTime := env.clock o2.rest.world.ticks - o2.rest.timeZero
              world := { o2.rest.world with ticks := o2.rest.world.ticks + 1 }
              numAcq := o2.rest.numAcq + 1 } })) ∧
    ∀ p, (match memEvaluateObjective env obj o1 a with
      | (o2, .error e) => MemRound.raised o2 e
      | (o2, .ok ()) => .next { o2 with rest := { o2.rest with
              cumTime := env.clock o2.rest.world.ticks - o2.rest.timeZero
              world := { o2.rest.world with ticks := o2.rest.world.ticks + 1 }
              numAcq := o2.rest.numAcq + 1 } }) = .next p → _
  rcases he : memEvaluateObjective env obj o1 a with ⟨o2, r⟩
  rw [he] at s sok sc sn sg sx sy
  dsimp only at s sok sc sn sg sx sy
  rw [hnx] at sn
  have hget : ∀ b, b < o.mem.next → o2.mem.get b = o.mem.get b := by
    intro b hb
    rw [sg b (by rw [hnx]; omega) hb.ne]
    change h2.get b = _
    rw [h2b b (by omega), h1b b hb]
  have hX2 : o2.X = a + 1 := sx
  rw [← s]
  rcases r with e | ⟨⟩
  · refine ⟨rfl, ⟨sok, sc.trans hk1, by change a ≤ o2.mem.next; omega, hget, .inr (by change a ≤ o2.X; omega), ?_⟩,
      fun p hp => by cases hp⟩
    change o2.Y = o.Y ∨ _
    -- a failed evaluation does not replace `Y`
    left
    have : o2 = (memEvaluateObjective env obj o1 a).1 := by rw [he]
    have herr : (memEvaluateObjective env obj o1 a).2 = .error e := by rw [he]
    rw [this]
    revert herr
    unfold memEvaluateObjective
    repeat' split
    all_goals intro herr
    all_goals first | rfl | cases herr
  · obtain ⟨b, hb1, hb2⟩ := sy () rfl
    rw [hnx] at hb2
    refine ⟨rfl, ⟨⟨sok.x, sok.y⟩, sc.trans hk1, by change a ≤ o2.mem.next; omega, hget, .inr (by change a ≤ o2.X; omega),
      .inr ⟨b, hb1, by change a ≤ b; omega⟩⟩, ?_⟩
    intro p hp
    cases hp
    exact ⟨by change a ≤ o2.X; omega, b, hb1, by omega⟩

theorem memLoop_sim (env : BOEnv) (obj : WritingObj) (maxIter maxTime : Limit) (eps : ℚ) :
    ∀ (fuel : Nat) (o : MemState), o.Ok → Harmless obj o.rest →
      ((memLoop env obj maxIter maxTime eps fuel o).1.view, (memLoop env obj maxIter maxTime eps fuel o).2)
          = boLoop env (WritingObj.outcome obj) maxIter maxTime eps fuel o.view ∧
        Frame o (memLoop env obj maxIter maxTime eps fuel o).1
  | 0, o, ho, hc => ⟨rfl, .refl ho⟩
  | fuel + 1, o, ho, hc => by
    obtain ⟨h1, h2, _⟩ := memRound_sim env obj maxIter maxTime eps o ho hc
    unfold memLoop boLoop
    rw [← h1]
    cases hr : memRound env obj maxIter maxTime eps o with
    | next p =>
      rw [hr] at h2
      obtain ⟨i1, i2⟩ := memLoop_sim env obj maxIter maxTime eps fuel p h2.ok (hc.of_kind h2.kind)
      exact ⟨i1, h2.trans i2⟩
    | stop p why =>
      rw [hr] at h2
      exact ⟨rfl, h2⟩
    | raised p e =>
      rw [hr] at h2
      exact ⟨rfl, h2⟩

/-- The part of a run after its start. -/
theorem memRun_after (env : BOEnv) (obj : WritingObj) (a : RunArgs) (fuel : Nat) (o o1 : MemState) (ho : o1.Ok)
    (hc : Harmless obj o1.rest) (henv : env.obj = some (WritingObj.outcome obj))
    (hm : memStart env obj a o = (o1, .ok ()))
    (hr : runStart env (WritingObj.outcome obj) a o.view = (o1.view, .ok ())) :
    ((memRun env obj a fuel o).1.view, (memRun env obj a fuel o).2) = runOptimization env a fuel o.view ∧
      Frame o1 (memRun env obj a fuel o).1 := by
  obtain ⟨l1, l4⟩ := memLoop_sim env obj a.limits.1 a.limits.2 a.eps fuel o1 ho hc
  unfold memRun runOptimization
  rw [hm, henv]
  dsimp only
  rw [hr]
  dsimp only
  rw [← l1]
  rcases hl : memLoop env obj a.limits.1 a.limits.2 a.eps fuel o1 with ⟨o2, why | e | _⟩
  · rw [hl] at l4
    dsimp only at l4 ⊢
    cases hY2 : o2.view.Y with
    | none => exact ⟨rfl, l4⟩
    | some Y =>
      dsimp only
      cases hr : computeResults o2.view.X Y with
      | error e => exact ⟨rfl, l4⟩
      | ok r =>
        refine ⟨?_, ⟨l4.ok.x, l4.ok.y⟩, l4.kind, l4.next, l4.get, l4.x, l4.y⟩
        dsimp only
        rw [← hY2]
        rfl
  · rw [hl] at l4
    exact ⟨rfl, l4⟩
  · rw [hl] at l4
    exact ⟨rfl, l4⟩

/-- **C123.** A run of an object with outputs: whatever the objective writes into its argument, the recorded locations
and outputs, the results and the outcome are those of the objective that writes nothing (unless the evaluation times are
modelled); and no array that existed before the run (in particular none of the caller's) is written. -/
theorem C123_run_partial (env : BOEnv) (obj : WritingObj) (a : RunArgs) (fuel : Nat) (o : MemState) (ho : o.Ok)
    (hc : o.rest.cost.kind ≠ .evaluationTime ∨ ∀ k x, (obj k x).1 = x) (hY : o.Y ≠ none)
    (henv : env.obj = some fun k x => (obj k x).2) :
    ((memRun env obj a fuel o).1.view, (memRun env obj a fuel o).2) = runOptimization env a fuel o.view ∧
      (∀ b, b < o.mem.next → (memRun env obj a fuel o).1.mem.get b = o.mem.get b) ∧
      Frame o (memRun env obj a fuel o).1 := by
  obtain ⟨y, hy⟩ := Option.ne_none_iff_exists'.1 hY
  obtain ⟨hp, pX, pY, popt, prest⟩ := o
  dsimp only at hy
  subst hy
  set o : MemState := ⟨hp, pX, some y, popt, prest⟩ with hodef
  set o1 : MemState := { o with rest := { o.rest with
      params := none, context := a.context, timeZero := env.clock o.rest.world.ticks
      world := { o.rest.world with ticks := o.rest.world.ticks + 1 }, cumTime := 0, numAcq := 0 } } with ho1
  have hok1 : o1.Ok := ⟨ho.x, ho.y⟩
  have l3 : Frame o o1 := ⟨hok1, rfl, le_rfl, fun _ _ => rfl, .inl rfl, .inl rfl⟩
  obtain ⟨h1, h2⟩ := memRun_after env obj a fuel o o1 hok1 hc henv rfl rfl
  have l4 := l3.trans h2
  exact ⟨h1, l4.get, l4⟩

/-- The end of the start of a run (`bo.py:128-136`), in memory. -/
def memTail (env : BOEnv) (ts : Vec) (o : MemState) : MemState × Py Unit :=
  let init (o : MemState) : MemState :=
    { o with rest := { o.rest with
      timeZero := env.clock o.rest.world.ticks
      world := { o.rest.world with ticks := o.rest.world.ticks + 1 }, cumTime := 0, numAcq := 0 } }
  if o.rest.cost.kind = .evaluationTime then
    match o.rest.cost.update env.lg (env.costFit o.view) (o.mem.get o.X) (.list ts) with
    | (c, .error e) => ({ o with rest := { o.rest with cost := c } }, .error e)
    | (c, .ok ()) => (init { o with rest := { o.rest with cost := c } }, .ok ())
  else (init o, .ok ())

/-- The end of the start of a run (`bo.py:128-136`), in `Model/BO`. -/
def runTail (env : BOEnv) (ts : Vec) (s : BOState) : BOState × Py Unit :=
  let init (s : BOState) : BOState :=
    { s with timeZero := env.clock s.world.ticks
             world := { s.world with ticks := s.world.ticks + 1 }, cumTime := 0, numAcq := 0 }
  if s.cost.kind = .evaluationTime then
    match s.cost.update env.lg (env.costFit s) s.X (.list ts) with
    | (c, .error e) => ({ s with cost := c }, .error e)
    | (c, .ok ()) => (init { s with cost := c }, .ok ())
  else (init s, .ok ())

theorem memTail_sim (env : BOEnv) (ts : Vec) (o : MemState) :
    ((memTail env ts o).1.view, (memTail env ts o).2) = runTail env ts o.view ∧
      (memTail env ts o).1.mem = o.mem ∧ (memTail env ts o).1.X = o.X ∧ (memTail env ts o).1.Y = o.Y := by
  unfold memTail runTail
  have h1 : o.view.cost = o.rest.cost := rfl
  have h2 : o.view.X = o.mem.get o.X := rfl
  rw [h1, h2]
  dsimp only
  by_cases hk : o.rest.cost.kind = .evaluationTime
  · rw [if_pos hk, if_pos hk]
    rcases hu : o.rest.cost.update env.lg (env.costFit o.view) (o.mem.get o.X) (.list ts) with ⟨c, e | ⟨⟩⟩
    · exact ⟨rfl, rfl, rfl, rfl⟩
    · exact ⟨rfl, rfl, rfl, rfl⟩
  · rw [if_neg hk, if_neg hk]
    exact ⟨rfl, rfl, rfl, rfl⟩

/-- **C123.** An objective that does not write into its argument: the run in memory is the run of `Model/BO`, for every
object (with or without outputs, with every cost model), and no array that existed is written. -/
theorem C123_pure_partial (env : BOEnv) (obj : WritingObj) (a : RunArgs) (fuel : Nat) (o : MemState) (ho : o.Ok)
    (hp : ∀ k x, (obj k x).1 = x) (henv : env.obj = some fun k x => (obj k x).2) :
    ((memRun env obj a fuel o).1.view, (memRun env obj a fuel o).2) = runOptimization env a fuel o.view ∧
      ∀ b, b < o.mem.next → (memRun env obj a fuel o).1.mem.get b = o.mem.get b := by
  by_cases hY : o.Y = none
  swap
  · obtain ⟨h1, h2, _⟩ := C123_run_partial env obj a fuel o ho (.inr hp) hY henv
    exact ⟨h1, h2⟩
  obtain ⟨h0, pX, pY, popt, prest⟩ := o
  dsimp only at hY
  subst hY
  set o : MemState := ⟨h0, pX, none, popt, prest⟩ with hodef
  have hobj : env.obj = some (WritingObj.outcome obj) := henv
  obtain ⟨e1, e2, e3⟩ := memEval_all obj env.clock pX h0 prest.world
  have e4 := memEval_pure hp env.clock pX (List.range (h0.get pX).length) h0 prest.world fun i hi => List.mem_range.1 hi
  rcases hm : memEval obj env.clock pX (List.range (h0.get pX).length) h0 prest.world with ⟨h, w, e | ⟨ys, ts⟩⟩
  · -- the initial evaluation fails
    rw [hm] at e1 e2 e3 e4
    dsimp only at e1 e2 e3 e4
    have hget : ∀ b, h.get b = h0.get b := fun b => by
      by_cases hb : b = pX
      · rw [hb, e4]
      · exact e3 b hb
    have hms : memStart env obj a o
        = ({ o with mem := h, rest := { prest with params := none, context := a.context, world := w } }, .error e) := by
      simp only [memStart, hodef, hm]
    have hrs : runStart env (WritingObj.outcome obj) a o.view
        = ({ o.view with params := none, context := a.context, world := w }, .error e) := by
      have : evalFunc (WritingObj.outcome obj) env.clock (h0.get pX) prest.world = (w, .error e) := e1.symm
      simp only [runStart, hodef, MemState.view, Option.map_none, this]
    unfold memRun runOptimization
    rw [hms, hobj]
    dsimp only
    rw [hrs]
    refine ⟨?_, fun b _ => hget b⟩
    simp only [MemState.view, hodef, hget, Option.map_none]
  · rw [hm] at e1 e2 e3 e4
    dsimp only at e1 e2 e3 e4
    have hget : ∀ b, h.get b = h0.get b := fun b => by
      by_cases hb : b = pX
      · rw [hb, e4]
      · exact e3 b hb
    have hev : evalFunc (WritingObj.outcome obj) env.clock (h0.get pX) prest.world = (w, .ok (ys, ts)) := e1.symm
    have hlt : pX < h.next := by rw [e2]; exact ho.x
    have hg2 : ∀ b, b < h0.next → (h.alloc (asColumn ys)).1.get b = h0.get b := fun b hb => by
      change Function.update h.get h.next _ b = _
      rw [Function.update_of_ne (by rw [e2]; exact hb.ne), hget]
    have hg3 : (h.alloc (asColumn ys)).1.get h.next = asColumn ys := Function.update_self _ _ _
    set o2 : MemState := { mem := (h.alloc (asColumn ys)).1, X := pX, Y := some h.next, opt := popt
                           rest := { prest with params := none, context := a.context, world := w } } with ho2
    set s2 : BOState := { o.view with params := none, context := a.context, world := w, Y := some ys } with hs2
    have hv2 : o2.view = s2 := by
      have hxx : (h.alloc (asColumn ys)).1.get pX = h0.get pX := hg2 _ ho.x
      simp only [MemState.view, hodef, hs2, ho2, hxx, Option.map_some, hg3, flatten_asColumn]
    have hms : memStart env obj a o = memTail env ts o2 := by
      unfold memStart
      simp only [hodef, hm]
      rfl
    have hrs : runStart env (WritingObj.outcome obj) a o.view = runTail env ts o2.view := by
      rw [hv2]
      unfold runStart
      simp only [hodef, MemState.view, Option.map_none, hev]
      rfl
    obtain ⟨t1, t2, t3, t4⟩ := memTail_sim env ts o2
    rcases ht : memTail env ts o2 with ⟨o3, e | ⟨⟩⟩
    · rw [ht] at t1 t2
      dsimp only at t1 t2
      unfold memRun runOptimization
      rw [hms, hobj]
      dsimp only
      rw [hrs, ← t1, ht]
      refine ⟨rfl, fun b hb => ?_⟩
      dsimp only
      rw [t2]
      exact hg2 b hb
    · rw [ht] at t1 t2 t3 t4
      dsimp only at t1 t2 t3 t4
      have hok : o3.Ok := by
        refine ⟨?_, fun b hb => ?_⟩
        · rw [t2, t3]
          exact hlt.trans (Nat.lt_succ_self _)
        · rw [t4] at hb
          cases hb
          rw [t2]
          exact Nat.lt_succ_self _
      obtain ⟨h1, h2⟩ := memRun_after env obj a fuel o o3 hok (.inr hp) hobj (hms.trans ht) (hrs.trans t1.symm)
      refine ⟨h1, fun b hb => ?_⟩
      rw [h2.get b (by rw [t2]; change b < h.next + 1; rw [e2]; exact hb.trans (Nat.lt_succ_self _)), t2]
      exact hg2 b hb

/-! ## The initial evaluation and the cost model -/

/-- **C123 (negation for initial locations).** An object without outputs: the objective gets the array of locations
itself. After the start, the recorded locations are what the objective left, while the outputs are those at the original
locations; and the caller's array is the one that has been written. -/
theorem C123_initial (env : BOEnv) (obj : WritingObj) (a : RunArgs) (o o1 : MemState) (ho : o.Ok) (hY : o.Y = none)
    (hs : memStart env obj a o = (o1, .ok ())) :
    ∃ w ys ts, evalFunc (fun k x => (obj k x).2) env.clock o.view.X o.view.world = (w, .ok (ys, ts)) ∧
      o1.view.Y = some ys ∧
      o1.view.X = o.view.X.mapIdx (fun i x => (obj (o.view.world.calls.length + i) x).1) ∧
      o1.mem.get o.X = o1.view.X := by
  obtain ⟨h0, pX, pY, popt, prest⟩ := o
  dsimp only at hY
  subst hY
  obtain ⟨e1, e2, -⟩ := memEval_all obj env.clock pX h0 prest.world
  have e3 := memEval_left_all obj env.clock pX h0 prest.world
  unfold memStart at hs
  dsimp only at hs
  rcases hm : memEval obj env.clock pX (List.range (h0.get pX).length) h0 prest.world with ⟨h, w, e | ⟨ys, ts⟩⟩
  · rw [hm] at hs
    cases hs
  rw [hm] at hs e1 e2 e3
  dsimp only at hs e1 e2 e3
  have e3 := e3 _ rfl
  have hX : (h.alloc (asColumn ys)).1.get pX = (h0.get pX).mapIdx fun i x => (obj (prest.world.calls.length + i) x).1 := by
    rw [← e3]
    exact Function.update_of_ne (by rw [e2]; exact ho.x.ne) _ _
  have hYv : ((h.alloc (asColumn ys)).1.get h.next).flatten = ys := by
    have : (h.alloc (asColumn ys)).1.get h.next = asColumn ys := Function.update_self _ _ _
    rw [this, flatten_asColumn]
  refine ⟨w, ys, ts, e1.symm, ?_⟩
  split at hs
  · split at hs
    · cases hs
    · cases hs
      exact ⟨congrArg some hYv, hX, rfl⟩
  · cases hs
    exact ⟨congrArg some hYv, hX, rfl⟩

/-! ## The caller's arrays -/

/-- The object shares no array with the caller. -/
structure Own (w : MemWorld) : Prop where
  ok : w.o.Ok
  known : ∀ b ∈ w.known, b < w.o.mem.next
  x : w.o.X ∉ w.known
  y : ∃ y, w.o.Y = some y ∧ y ∉ w.known

theorem alloc_view {o : MemState} (ho : o.Ok) (A : Mat) :
    ({ o with mem := (o.mem.alloc A).1 } : MemState).view = o.view ∧
      ({ o with mem := (o.mem.alloc A).1 } : MemState).Ok := by
  have hg : ∀ b, b < o.mem.next → (o.mem.alloc A).1.get b = o.mem.get b := fun b hb =>
    Function.update_of_ne hb.ne _ _
  constructor
  · simp only [MemState.view, hg _ ho.x]
    cases hY : o.Y with
    | none => rfl
    | some y => simp only [Option.map_some, hg y (ho.y y hY)]
  · exact ⟨ho.x.trans (Nat.lt_succ_self _), fun y hy => (ho.y y hy).trans (Nat.lt_succ_self _)⟩

/-- What one step does to an object with its own arrays: only the view matters. -/
def stepView (env : BOEnv) (s : BOState) : CallerStep → BOState
  | .run a fuel => (runOptimization env a fuel s).1
  | .suggest context pending ignored => (suggestNext env context pending ignored s).1
  | _ => s

theorem suggestNext_keeps (env : BOEnv) (context : Option Context) (pending ignored : Option Mat) (s : BOState) :
    (suggestNext env context pending ignored s).1.X = s.X ∧ (suggestNext env context pending ignored s).1.Y = s.Y ∧
      (suggestNext env context pending ignored s).1.cost = s.cost := by
  obtain ⟨k1, k2, k3⟩ := updateModel_keeps env { s with params := none, numAcq := 0, context := context }
  unfold suggestNext
  dsimp only
  rcases hu : updateModel env { s with params := none, numAcq := 0, context := context } with ⟨s2, e | ⟨⟩⟩
  all_goals
    rw [hu] at k1 k2 k3
    exact ⟨k1, k2, k3⟩

theorem callerStep_view (env : BOEnv) (obj : WritingObj) (henv : env.obj = some fun k x => (obj k x).2) (w : MemWorld)
    (hw : Own w) (hc : Harmless obj w.o.rest) (st : CallerStep) (hst : ∀ x, st ≠ .writeOpt x) :
    (callerStep env obj w st).o.view = stepView env w.o.view st ∧ Own (callerStep env obj w st) ∧
      (callerStep env obj w st).o.rest.cost.kind = w.o.rest.cost.kind := by
  obtain ⟨y, hy, hyk⟩ := hw.y
  cases st with
  | run a fuel =>
    obtain ⟨h1, h2, h3⟩ := C123_run_partial env obj a fuel w.o hw.ok hc (by rw [hy]; simp) henv
    refine ⟨?_, ⟨h3.ok, fun b hb => (hw.known b hb).trans_le h3.next, ?_, ?_⟩, h3.kind⟩
    · change (memRun env obj a fuel w.o).1.view = (runOptimization env a fuel w.o.view).1
      rw [← h1]
    · change (memRun env obj a fuel w.o).1.X ∉ w.known
      rcases h3.x with hx | hx
      · rw [hx]; exact hw.x
      · exact fun hk => absurd (hw.known _ hk) (by omega)
    · change ∃ y, (memRun env obj a fuel w.o).1.Y = some y ∧ y ∉ w.known
      rcases h3.y with hx | ⟨b, hb, hx⟩
      · rw [hx]; exact hw.y
      · exact ⟨b, hb, fun hk => absurd (hw.known _ hk) (by omega)⟩
  | write a A =>
    unfold callerStep stepView
    dsimp only
    split
    · rename_i ha
      have hxa : w.o.X ≠ a := fun e => hw.x (e ▸ ha)
      have hya : y ≠ a := fun e => hyk (e ▸ ha)
      refine ⟨?_, ⟨⟨hw.ok.x, hw.ok.y⟩, hw.known, hw.x, hw.y⟩, rfl⟩
      simp only [MemState.view, Mem.write, hy, Option.map_some, Function.update_of_ne hxa, Function.update_of_ne hya]
    · exact ⟨rfl, hw, rfl⟩
  | writeOpt x => exact absurd rfl (hst x)
  | copies =>
    unfold callerStep stepView
    dsimp only
    rw [hy]
    dsimp only
    obtain ⟨v1, k1⟩ := alloc_view hw.ok (w.o.mem.get w.o.X)
    obtain ⟨v2, k2⟩ := alloc_view k1 ((w.o.mem.alloc (w.o.mem.get w.o.X)).1.get y)
    have v3 := v2.trans v1
    dsimp only at v3 k2
    rw [hy] at v3 k2
    refine ⟨?_, ⟨?_, ?_, ?_, ?_⟩, rfl⟩
    · exact v3
    · exact k2
    · intro b hb
      change b < w.o.mem.next + 1 + 1
      rw [List.mem_append] at hb
      rcases hb with hb | hb
      · have := hw.known b hb; omega
      · simp only [Mem.alloc, List.mem_cons, List.not_mem_nil, or_false] at hb
        omega
    · have := hw.ok.x
      simp only [Mem.alloc, List.mem_append, List.mem_cons, List.not_mem_nil, or_false, not_or]
      exact ⟨hw.x, by omega, by omega⟩
    · have := hw.ok.y y hy
      simp only [Mem.alloc, List.mem_append, List.mem_cons, List.not_mem_nil, or_false, not_or]
      exact ⟨y, rfl, hyk, by omega, by omega⟩
  | suggest context pending ignored =>
    obtain ⟨s1, s2, s3⟩ := suggestNext_keeps env context pending ignored w.o.view
    unfold callerStep stepView
    dsimp only
    rcases hs : suggestNext env context pending ignored w.o.view with ⟨s, e | m⟩
    · rw [hs] at s1 s2 s3
      exact ⟨view_rest s1 s2, ⟨⟨hw.ok.x, hw.ok.y⟩, hw.known, hw.x, hw.y⟩, congrArg CostModel.kind s3⟩
    · rw [hs] at s1 s2 s3
      have hok : ({ w.o with rest := s } : MemState).Ok := ⟨hw.ok.x, hw.ok.y⟩
      obtain ⟨v1, k1⟩ := alloc_view hok m
      refine ⟨v1.trans (view_rest s1 s2), ⟨k1, ?_, ?_, ?_⟩, congrArg CostModel.kind s3⟩
      · intro b hb
        change b < w.o.mem.next + 1
        rw [List.mem_append] at hb
        rcases hb with hb | hb
        · have := hw.known b hb; omega
        · simp only [Mem.alloc, List.mem_cons, List.not_mem_nil, or_false] at hb
          omega
      · have := hw.ok.x
        simp only [Mem.alloc, List.mem_append, List.mem_cons, List.not_mem_nil, or_false, not_or]
        exact ⟨hw.x, by omega⟩
      · have := hw.ok.y y hy
        simp only [Mem.alloc, List.mem_append, List.mem_cons, List.not_mem_nil, or_false, not_or]
        exact ⟨y, hy, hyk, by omega⟩

/-- A sequence of steps: the object is what the calls of its methods make of it. -/
theorem callerSteps_view (env : BOEnv) (obj : WritingObj) (henv : env.obj = some fun k x => (obj k x).2) :
    ∀ (steps : List CallerStep) (w : MemWorld), Own w → Harmless obj w.o.rest →
      (∀ x, .writeOpt x ∉ steps) →
      (callerSteps env obj w steps).o.view = steps.foldl (stepView env) w.o.view
  | [], _, _, _, _ => rfl
  | st :: steps, w, hw, hc, hn => by
    obtain ⟨h1, h2, h3⟩ := callerStep_view env obj henv w hw hc st fun x e => hn x (by rw [e]; simp)
    have := callerSteps_view env obj henv steps (callerStep env obj w st) h2 (hc.of_kind h3)
      fun x hx => hn x (by simp [hx])
    rw [List.foldl_cons, ← h1, ← this]
    rfl

/-- The step is a write into an array the caller has. -/
def _root_.GPyOpt.CallerStep.isWrite : CallerStep → Bool
  | .write _ _ => true
  | _ => false

/-- **C124.** An object that shares no array with its caller: in every history of runs, requests for locations, requests
for copies and writes into the arrays the caller has (also those received in the meantime), the writes have no effect on
the object. -/
theorem C124_caller_partial (env : BOEnv) (obj : WritingObj) (henv : env.obj = some fun k x => (obj k x).2)
    (steps : List CallerStep) (w : MemWorld) (hw : Own w)
    (hc : w.o.rest.cost.kind ≠ .evaluationTime ∨ ∀ k x, (obj k x).1 = x)
    (hn : ∀ x, .writeOpt x ∉ steps) :
    (callerSteps env obj w steps).o.view
      = (callerSteps env obj w (steps.filter fun st => !st.isWrite)).o.view := by
  rw [callerSteps_view env obj henv steps w hw hc hn,
    callerSteps_view env obj henv _ w hw hc fun x hx => hn x (List.mem_of_mem_filter hx)]
  generalize w.o.view = s
  induction steps generalizing s with
  | nil => rfl
  | cons st steps ih =>
    have ih := fun s => ih (fun x hx => hn x (by simp [hx])) s
    cases st
    case write a A => exact ih s
    all_goals exact ih _

/-- **C124.** Which objects share no array with their caller: after a run that has changed the recorded locations and
outputs, those are in new arrays. -/
theorem C124_own (env : BOEnv) (obj : WritingObj) (henv : env.obj = some fun k x => (obj k x).2) (a : RunArgs)
    (fuel : Nat) (w : MemWorld) (hw : w.o.Ok) (hk : ∀ b ∈ w.known, b < w.o.mem.next) (hY : w.o.Y ≠ none)
    (hc : w.o.rest.cost.kind ≠ .evaluationTime ∨ ∀ k x, (obj k x).1 = x)
    (hX' : (runOptimization env a fuel w.o.view).1.X ≠ w.o.view.X)
    (hY' : (runOptimization env a fuel w.o.view).1.Y ≠ w.o.view.Y) :
    Own (callerStep env obj w (.run a fuel)) := by
  obtain ⟨h1, h2, h3⟩ := C123_run_partial env obj a fuel w.o hw hc hY henv
  rw [← h1] at hX' hY'
  refine ⟨h3.ok, fun b hb => (hk b hb).trans_le h3.next, ?_, ?_⟩
  · change (memRun env obj a fuel w.o).1.X ∉ w.known
    rcases h3.x with hx | hx
    · refine absurd ?_ hX'
      change (memRun env obj a fuel w.o).1.mem.get (memRun env obj a fuel w.o).1.X = w.o.mem.get w.o.X
      rw [hx, h2 _ hw.x]
    · exact fun hb => absurd (hk _ hb) (by omega)
  · change ∃ y, (memRun env obj a fuel w.o).1.Y = some y ∧ y ∉ w.known
    rcases h3.y with hx | ⟨b, hb, hx⟩
    · refine absurd ?_ hY'
      change ((memRun env obj a fuel w.o).1.Y.map fun b => ((memRun env obj a fuel w.o).1.mem.get b).flatten)
        = w.o.Y.map fun b => (w.o.mem.get b).flatten
      rw [hx]
      cases hy : w.o.Y with
      | none => rfl
      | some y => simp only [Option.map_some, h2 _ (hw.y y hy)]
    · exact ⟨b, hb, fun hk' => absurd (hk _ hk') (by omega)⟩

/-! ## Examples and counterexamples -/

/-- The objective of `exBO`, which adds 99 to its argument in place. -/
def exWriter : WritingObj := fun _ x => ([x.headD 0 + 99], .ok ((x.headD 0 - 1/4) ^ 2))

/-- An object whose locations are the caller's array 0 and whose outputs are the caller's array 1. -/
def exShared (Y : Option Nat) (cost : CostArg) : MemState where
  mem := { next := 2, get := fun a => if a = 0 then [[0], [1]] else if a = 1 then [[1/16], [9/16]] else [] }
  X := 0
  Y := Y
  rest := boInit [] none cost

theorem exShared_ok (cost : CostArg) : (exShared (some 1) cost).Ok ∧ (exShared none cost).Ok :=
  ⟨⟨by simp [exShared], fun a h => by cases h; simp [exShared]⟩, ⟨by simp [exShared], fun a h => by cases h⟩⟩

/-- The hypotheses of `C123_run_partial` are met by a run of three iterations: the objective changes its argument and
the recorded locations are the suggested ones. -/
example : ((designSpace exLine none).map fun sp =>
      let r := memRun (exBO sp) exWriter { maxIter := some (.fin 3) } 10 (exShared (some 1) .none)
      (r.2, r.1.view.X, r.1.view.Y, r.1.mem.get 0))
    = .ok (.done .limit, [[0], [1], [1/3], [1/4], [1/5]], some [1/16, 9/16, 1/144, 0, 1/400], [[0], [1]]) ∧
    (exShared (some 1) .none).rest.cost.kind ≠ .evaluationTime ∧ (exShared (some 1) .none).Ok :=
  ⟨by decide +kernel, by decide, (exShared_ok _).1⟩

/-- **C123 (negation: initial locations).** The same run without initial outputs: the recorded initial locations and the
caller's array are overwritten, and the reported optimum of the second run is not where the objective was evaluated. -/
theorem C123_initial_counterexample :
    ((designSpace exLine none).map fun sp =>
        let r := memRun (exBO sp) exWriter { maxIter := some (.fin 1) } 10 (exShared none .none)
        (r.1.view.X, r.1.mem.get 0, r.1.view.world.calls.map Prod.fst))
      = .ok ([[99], [100], [1/3]], [[99], [100]], [[0], [1], [1/3]]) ∧
    ((designSpace exLine none).map fun sp =>
        let r := memRun (exBO sp) exWriter { maxIter := some (.fin 0) } 10 (exShared none .none)
        r.1.view.results.map Results.xOpt) = .ok (some [99]) ∧
    (exShared none .none).Ok := by
  refine ⟨?_, ?_, (exShared_ok _).2⟩ <;> decide +kernel

/-- **C123 (negation: cost model).** With modelled evaluation times, the cost model is trained at the overwritten
locations. -/
theorem C123_cost_counterexample :
    ((designSpace exLine none).map fun sp =>
        let r := memRun (exBO sp) exWriter { maxIter := some (.fin 2) } 10 (exShared (some 1) (.str "evaluation_time"))
        (r.1.view.X, r.1.view.cost.data))
      = .ok ([[0], [1], [1/3], [1/4]], some ([[298/3], [397/4]], [1, 1])) ∧
    (exShared (some 1) (.str "evaluation_time")).Ok :=
  ⟨by decide +kernel, (exShared_ok _).1⟩

/-- **C124 (negation: before the first iteration).** The object uses the arrays it was given: a write of the caller
changes its data. -/
theorem C124_initial_counterexample :
    ((designSpace exLine none).map fun sp =>
        (callerSteps (exBO sp) exWriter { o := exShared (some 1) .none, known := [0, 1] }
          [.write 0 [[5], [6]], .run { maxIter := some (.fin 1) } 10]).o.view.X)
      = .ok [[5], [6], [1/3]] := by
  decide +kernel

/-- **C124 (negation: `x_opt`).** The reported optimum is a view of a row of the data: a write of the caller into it
changes the recorded location. -/
theorem C124_opt_counterexample :
    ((designSpace exLine none).map fun sp =>
        (callerSteps (exBO sp) exWriter { o := exShared (some 1) .none, known := [0, 1] }
          [.run { maxIter := some (.fin 1) } 10, .writeOpt [7]]).o.view.X)
      = .ok [[0], [1], [7]] := by
  decide +kernel

/-- The hypotheses of `C124_own` and `C124_caller_partial` are met: after one iteration the arrays are the object's own,
and writes into the caller's arrays, old and received, change nothing. -/
example : ((designSpace exLine none).map fun sp =>
      let w := callerSteps (exBO sp) exWriter { o := exShared (some 1) .none, known := [0, 1] }
          [.run { maxIter := some (.fin 1) } 10]
      let w' := callerSteps (exBO sp) exWriter w
          [.write 0 [[5], [6]], .copies, .write 5 [[8]], .suggest none none none, .write 7 [[9]],
            .run { maxIter := some (.fin 1) } 10]
      ((w.o.X, w.o.Y, w'.known), [w'.o.mem.get 0, w'.o.mem.get 5, w'.o.mem.get 7, w'.o.view.X]))
    = .ok ((3, some 4, [0, 1, 5, 6, 7]), [[[5], [6]], [[8]], [[9]], [[0], [1], [1/3], [1/4]]]) := by
  decide +kernel

end GPyOpt.Props
