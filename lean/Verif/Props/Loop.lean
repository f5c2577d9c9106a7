import Verif.Lemmas.BO
import Verif.Spec.BO
import Verif.Props.Batch

/-!
# Properties C35–C43, C45–C47: the optimization loop
-/

namespace GPyOpt.Props

open GPyOpt Spec

/-! ## C35: the data stay aligned -/

/-- The records of an optimizer object created with `X0`, `Y0`: the data are the initial data
followed by the evaluated points, `obj` being the user's function. -/
def Aligned (obj : Nat → Vec → Py ℚ) (X0 : Mat) (Y0 : Option Vec) (s : BOState) : Prop :=
  Logged obj s.world ∧
  ∃ cs ys, ys.length = cs.length ∧ s.world.calls = callsOf cs ys ∧
    match Y0, s.Y with
    | some y0, some Y => s.X = X0 ++ cs ∧ Y = y0 ++ ys
    | none, some Y => s.X = cs ∧ Y = ys ∧ X0 <+: s.X
    | none, none => s.X = X0 ∧ cs = []
    | some _, none => False

theorem aligned_op {env : BOEnv} {obj : Nat → Vec → Py ℚ} (hobj : env.obj = some obj) {X0 : Mat}
    {Y0 : Option Vec} {s : BOState} (h : Aligned obj X0 Y0 s) (op : Op) (hc : op.Completes env s) :
    Aligned obj X0 Y0 (op.after env s) := by
  obtain ⟨hl, cs, ys, hlen, hcalls, hm⟩ := h
  cases op with
  | suggest c p i =>
    obtain ⟨ps, fs, hs⟩ := suggest_frame (env := env) (c := c) (p := p) (i := i) (s := s)
    simp only [Op.after, hs]
    exact ⟨hl, cs, ys, hlen, hcalls, hm⟩
  | run a fuel =>
    obtain ⟨why, hw⟩ := hc
    have hrun : runOptimization env a fuel s = ((runOptimization env a fuel s).1, .done why) := by
      rw [← hw]
    simp only [Op.after]
    generalize (runOptimization env a fuel s).1 = s' at hrun ⊢
    obtain ⟨obj', y1, new, bs, ho, hcase, hX, hY, hbl, hc', hlog, -, -⟩ := run_data hrun
    rw [hobj] at ho
    injection ho with ho
    subst ho
    refine ⟨hlog hl, ?_⟩
    rcases hcase with ⟨hsY, rfl⟩ | ⟨hsY, rfl, hyl⟩
    · refine ⟨cs ++ batchRows bs, ys ++ batchVals bs, by simp [hlen, hbl], ?_, ?_⟩
      · rw [hc', hcalls, callsOf_append hlen]; simp
      · rw [hsY] at hm
        rw [hY, hX]
        cases Y0 with
        | some y0 =>
          simp only at hm ⊢
          rw [hm.1, hm.2, List.append_assoc, List.append_assoc]
          exact ⟨rfl, rfl⟩
        | none =>
          simp only at hm ⊢
          obtain ⟨h1, h2, h3⟩ := hm
          exact ⟨by rw [h1], by rw [h2], h3.trans (List.prefix_append _ _)⟩
    · rw [hsY] at hm
      cases Y0 with
      | some y0 => simp at hm
      | none =>
        simp only at hm
        obtain ⟨hX0, rfl⟩ := hm
        have hys : ys = [] := by simpa using hlen
        subst hys
        refine ⟨s.X ++ batchRows bs, y1 ++ batchVals bs, by simp [hyl, hbl], ?_, ?_⟩
        · rw [hc', hcalls, callsOf_append hyl]; simp [callsOf]
        · rw [hY, hX]
          exact ⟨rfl, rfl, hX0 ▸ List.prefix_append _ _⟩

theorem aligned_history {env : BOEnv} {obj : Nat → Vec → Py ℚ} (hobj : env.obj = some obj) {X0 : Mat}
    {Y0 : Option Vec} (ops : List Op) {s : BOState} (h : Aligned obj X0 Y0 s)
    (hc : AllComplete env ops s) : Aligned obj X0 Y0 (afterAll env ops s) := by
  induction ops generalizing s with
  | nil => exact h
  | cons op ops ih => exact ih (aligned_op hobj h op hc.1) hc.2

/-- C35. After any sequence of completed calls there are as many outputs as locations: the initial
data, followed by the locations at which the objective was called, in this order, with the returned
values. If the initial outputs were not given they too are values of the objective. -/
theorem C35_data_aligned (env : BOEnv) (obj : Nat → Vec → Py ℚ) (hobj : env.obj = some obj)
    (X0 : Mat) (Y0 : Option Vec) (cost : CostArg) (hY0 : ∀ y0, Y0 = some y0 → y0.length = X0.length)
    (ops : List Op) (hc : AllComplete env ops (boInit X0 Y0 cost)) (Y : Vec)
    (hY : (afterAll env ops (boInit X0 Y0 cost)).Y = some Y) :
    let s := afterAll env ops (boInit X0 Y0 cost)
    s.X.length = Y.length ∧ X0 <+: s.X ∧ (∀ y0, Y0 = some y0 → y0 <+: Y) ∧
    s.world.calls = (List.zip s.X (Y.map .ok)).drop (Y0.getD []).length ∧
    ∀ (i : Nat) (x : Vec) (y : ℚ), (Y0.getD []).length ≤ i → s.X[i]? = some x → Y[i]? = some y →
      obj (i - (Y0.getD []).length) x = .ok y := by
  have h0 : Aligned obj X0 Y0 (boInit X0 Y0 cost) := by
    refine ⟨fun j x r hj => by simp [boInit] at hj, [], [], rfl, rfl, ?_⟩
    cases Y0 <;> simp [boInit]
  obtain ⟨hl, cs, ys, hlen, hcalls, hm⟩ := aligned_history hobj ops h0 hc
  intro s
  rw [hY] at hm
  have key : ∃ x0 y0 : List _, y0 = Y0.getD [] ∧ y0.length = x0.length ∧ s.X = x0 ++ cs ∧
      Y = y0 ++ ys ∧ X0 <+: s.X := by
    cases Y0 with
    | some y0 => exact ⟨X0, y0, rfl, hY0 y0 rfl, hm.1, hm.2, by rw [show s.X = X0 ++ cs from hm.1]; exact List.prefix_append _ _⟩
    | none => exact ⟨[], [], rfl, rfl, hm.1, hm.2.1, hm.2.2⟩
  obtain ⟨x0, y0, hy0, hl0, hX, hYY, hpre⟩ := key
  have hcalls' : s.world.calls = (List.zip s.X (Y.map .ok)).drop (Y0.getD []).length := by
    rw [← hy0, hX, hYY, List.map_append, List.zip_append (by simp [hl0]), List.drop_left' (by simp [hl0])]
    exact hcalls
  refine ⟨by rw [hX, hYY]; simp [hl0, hlen], hpre, ?_, hcalls', ?_⟩
  · rintro y rfl
    rw [hYY, hy0]; exact List.prefix_append _ _
  · intro i x y hi hx hy
    apply hl
    rw [show (afterAll env ops (boInit X0 Y0 cost)).world.calls = s.world.calls from rfl, hcalls',
      List.getElem?_drop, Nat.add_sub_cancel' hi, List.getElem?_zip_eq_some]
    simp [hx, hy]

/-- C35 for a deterministic objective `f` that does not raise, without initial outputs: every output
is the objective at the location with the same index. -/
theorem C35_objective_values (env : BOEnv) (f : Vec → ℚ) (hobj : env.obj = some fun _ x => .ok (f x))
    (X0 : Mat) (cost : CostArg) (ops : List Op) (hc : AllComplete env ops (boInit X0 none cost))
    (Y : Vec) (hY : (afterAll env ops (boInit X0 none cost)).Y = some Y) :
    Y = (afterAll env ops (boInit X0 none cost)).X.map f := by
  obtain ⟨h1, -, -, -, h5⟩ := C35_data_aligned env _ hobj X0 none cost (by simp) ops hc Y hY
  apply List.ext_getElem?
  intro i
  rw [List.getElem?_map]
  cases hx : (afterAll env ops (boInit X0 none cost)).X[i]? with
  | none =>
    rw [List.getElem?_eq_none_iff] at hx
    simpa using (by omega : Y.length ≤ i)
  | some x =>
    have hi : i < Y.length := by
      have := (List.getElem?_eq_some_iff.1 hx).1
      omega
    have := h5 i x Y[i] (by simp) hx (List.getElem?_eq_getElem hi)
    injection this with this
    rw [List.getElem?_eq_getElem hi, Option.map_some, this]

/-! ## C36: the history is append-only -/

/-- C36. Whatever the sequence of calls and their outcomes (also exceptions, also in the middle of a
run) the data collected before are kept: they are a prefix of the data afterwards. -/
theorem C36_append_only (env : BOEnv) (ops : List Op) (s : BOState) :
    s.X <+: (afterAll env ops s).X ∧
    ∀ Y, s.Y = some Y → ∃ Y', (afterAll env ops s).Y = some Y' ∧ Y <+: Y' := by
  induction ops generalizing s with
  | nil => exact ⟨List.prefix_rfl, fun Y hY => ⟨Y, hY, List.prefix_rfl⟩⟩
  | cons op ops ih =>
    have h1 : s.X <+: (op.after env s).X ∧
        ∀ Y, s.Y = some Y → ∃ Y', (op.after env s).Y = some Y' ∧ Y <+: Y' := by
      cases op with
      | suggest c p i =>
        obtain ⟨ps, fs, hs⟩ := suggest_frame (env := env) (c := c) (p := p) (i := i) (s := s)
        simp only [Op.after, hs]
        exact ⟨List.prefix_rfl, fun Y hY => ⟨Y, hY, List.prefix_rfl⟩⟩
      | run a fuel => exact run_prefix (s' := (runOptimization env a fuel s).1) rfl
    obtain ⟨h2, h3⟩ := ih (op.after env s)
    refine ⟨h1.1.trans h2, fun Y hY => ?_⟩
    obtain ⟨Y1, e1, e2⟩ := h1.2 Y hY
    obtain ⟨Y2, e3, e4⟩ := h3 Y1 e1
    exact ⟨Y2, e3, e2.trans e4⟩

/-! ## C37: iteration budget -/

/-- C37. A completed run adds the batches of its acquisitions to the data, one batch per
acquisition, and calls the objective exactly once per added row (after evaluating the initial
locations, if they have no outputs yet). Every batch is the suggestion for the data collected before. With
`max_iter = n` there are at most `n` acquisitions. -/
theorem C37_iteration_budget (env : BOEnv) (a : RunArgs) (fuel : Nat) (s s' : BOState) (why : Stop)
    (h : runOptimization env a fuel s = (s', .done why)) :
    ∃ batches : List (Mat × Vec), batches.length = s'.numAcq ∧
      s'.X = s.X ++ (batches.map Prod.fst).flatten ∧
      (s'.world.calls.drop s.world.calls.length).map Prod.fst =
        (if s.Y = none then s.X else []) ++ (batches.map Prod.fst).flatten ∧
      (∀ (i : Nat) (b : Mat × Vec), batches[i]? = some b → ∃ (st : BOState) (Y0 : Vec),
        (s.Y = some Y0 ∨ s.Y = none ∧ Y0.length = s.X.length) ∧
        st.X = s.X ++ ((batches.take i).map Prod.fst).flatten ∧
        st.Y = some (Y0 ++ ((batches.take i).map Prod.snd).flatten) ∧ b.2.length = b.1.length ∧
        env.suggest st none none = .ok b.1) ∧
      ∀ n : Nat, a.maxIter = some (.fin n) → s'.numAcq ≤ n := by
  obtain ⟨obj, s0, bs, sk, s2, Y, r, ho, -, hst, htr, -, hsp, -, -, rfl⟩ := runOptimization_done h
  obtain ⟨Y0, new, hY0, hc0, hcase⟩ := hst.Y
  obtain ⟨d1, d2, d3, d4, d5, d6, d7, -, -⟩ := htr.data hY0
  obtain ⟨ps, fs, rfl⟩ := hsp.frame
  have hnum : bs.length = sk.numAcq := by rw [d6, hst.numAcq]; omega
  have hfst : ∀ (xs : Mat) (ys : Vec), ys.length = xs.length → (callsOf xs ys).map Prod.fst = xs := by
    intro xs ys hl
    exact List.map_fst_zip (by simp [hl])
  refine ⟨bs, hnum, ?_, ?_, ?_, ?_⟩
  · rw [← hst.X]; exact d1
  · simp only
    rw [d3, hc0, List.append_assoc, List.drop_left, List.map_append, hfst _ _ d4]
    rcases hcase with ⟨h1, rfl⟩ | ⟨h1, rfl, h3⟩
    · simp [h1, batchRows]
    · simp [h1, batchRows, hfst _ _ h3]
  · intro i b hb
    obtain ⟨hi, rfl⟩ := List.getElem?_eq_some_iff.1 hb
    obtain ⟨si, si', g1, g2, -, -⟩ := htr.split hi
    obtain ⟨e1, e2, -⟩ := g1.data hY0
    obtain ⟨ps', fs', hu⟩ : ∃ ps fs, (updateModel env si).1 =
        { si with params := ps, fits := si.fits ++ fs } := updateModel_frame (r := (updateModel env si).2) rfl
    refine ⟨(updateModel env si).1, Y0, ?_, ?_, ?_, g2.len, g2.suggested⟩
    · rcases hcase with ⟨h1, -⟩ | ⟨h1, -, h3⟩
      · exact .inl h1
      · exact .inr ⟨h1, h3⟩
    · rw [hu, ← hst.X]; exact e1
    · rw [hu]; exact e2
  · intro n hn
    have hlim : a.limits.1 = .fin n := by
      unfold RunArgs.limits
      rw [hn]
      cases a.maxTime <;> rfl
    rw [hlim] at htr
    have := htr.budget (by rw [hst.numAcq]; omega)
    rw [hst.numAcq] at this
    simp only
    omega

/-- C37: a run with `max_iter = n` ends after at most `n + 1` rounds (every additional bound on the
number of rounds gives the same result). -/
theorem C37_terminates (env : BOEnv) (a : RunArgs) (s : BOState) (n : Nat)
    (hn : a.maxIter = some (.fin n)) (fuel : Nat) (hf : n + 1 ≤ fuel) :
    (runOptimization env a fuel s).2 ≠ .running := by
  have hlim : a.limits.1 = .fin n := by
    unfold RunArgs.limits
    rw [hn]
    cases a.maxTime <;> rfl
  intro hrun
  unfold runOptimization at hrun
  cases ho : env.obj with
  | none => simp [ho] at hrun
  | some obj =>
    simp only [ho] at hrun
    rcases hst : runStart env obj a s with ⟨s0, r⟩
    rw [hst] at hrun
    cases r with
    | error e => simp at hrun
    | ok u =>
      simp only at hrun
      rcases hl : boLoop env obj a.limits.1 a.limits.2 a.eps fuel s0 with ⟨s2, r⟩
      rw [hl] at hrun
      have hr : r = .running := by
        cases r with
        | running => rfl
        | raised e => simp at hrun
        | done why =>
          simp only at hrun
          cases hY : s2.Y with
          | none => simp [hY] at hrun
          | some Y =>
            simp only [hY] at hrun
            cases hr : computeResults s2.X Y <;> simp [hr] at hrun
      subst hr
      obtain ⟨bs, sk, htr, -, -, h2⟩ := boLoop_trace hl
      rw [hlim] at htr
      have := htr.budget (by rw [(runStart_ok hst).numAcq]; omega)
      rw [(runStart_ok hst).numAcq] at this
      omega

/-- C37: with `max_iter = max_time = None` no acquisition is made. -/
theorem C37_no_limits (env : BOEnv) (a : RunArgs) (fuel : Nat) (s s' : BOState) (why : Stop)
    (h1 : a.maxIter = none) (h2 : a.maxTime = none)
    (h : runOptimization env a fuel s = (s', .done why)) : s'.numAcq = 0 ∧ s'.X = s.X := by
  obtain ⟨obj, s0, bs, sk, s2, Y, r, ho, -, hst, htr, -, hsp, -, -, rfl⟩ := runOptimization_done h
  obtain ⟨Y0, new, hY0, -, -⟩ := hst.Y
  have hlim : a.limits.1 = .fin (0 : Nat) := by simp [RunArgs.limits, h1, h2]
  rw [hlim] at htr
  have hb := htr.budget (by rw [hst.numAcq])
  obtain ⟨d1, -, -, -, -, d6, -⟩ := htr.data hY0
  obtain ⟨ps, fs, rfl⟩ := hsp.frame
  have hbs : bs = [] := List.length_eq_zero_iff.1 (by omega)
  subst hbs
  exact ⟨by simpa [hst.numAcq] using d6, by simpa [batchRows, hst.X] using d1⟩

/-! ## C38: stop conditions -/

theorem sum_sq_cast (a b : Vec) :
    (List.zipWith (fun u v : ℚ => ((u : ℝ) - v) ^ 2) a b).sum = ((rowSqDist a b : ℚ) : ℝ) := by
  unfold rowSqDist
  induction a generalizing b with
  | nil => simp
  | cons x a ih =>
    cases b with
    | nil => simp
    | cons y b =>
      simp only [List.zipWith_cons_cons, List.sum_cons, List.map_cons]
      rw [ih]
      push_cast
      rfl

theorem rowSqDist_nonneg (a b : Vec) : 0 ≤ rowSqDist a b := by
  unfold rowSqDist
  apply List.sum_nonneg
  intro x hx
  obtain ⟨d, -, rfl⟩ := List.mem_map.1 hx
  exact sq_nonneg d

theorem lastTwoClose_iff (eps : ℚ) (X : Mat) : lastTwoClose eps X = true ↔ CloseLast eps X := by
  have hsq : ∀ a b : Vec, Real.sqrt ((List.zipWith (fun u v : ℚ => ((u : ℝ) - v) ^ 2) a b).sum) ≤ eps ↔
      (0 ≤ eps ∧ rowSqDist a b ≤ eps ^ 2) := by
    intro a b
    rw [sum_sq_cast, Real.sqrt_le_iff]
    exact and_congr (by norm_cast) (by norm_cast)
  unfold lastTwoClose CloseLast
  constructor
  · intro h
    rcases hX : X.reverse with _ | ⟨a, _ | ⟨b, l⟩⟩
    · simp [hX] at h
    · simp [hX] at h
    · simp only [hX, decide_eq_true_eq] at h
      refine ⟨l.reverse, b, a, ?_, (hsq a b).2 h⟩
      rw [← List.reverse_reverse X, hX]
      simp
  · rintro ⟨pre, b, a, rfl, h⟩
    simp only [List.reverse_append, List.reverse_cons, List.reverse_nil, List.nil_append,
      List.cons_append, decide_eq_true_eq]
    exact (hsq a b).1 h

theorem exceeds_time (a : RunArgs) (t : ℚ) : a.limits.2.exceeds t = true ↔ TimeLeft a t := by
  unfold RunArgs.limits TimeLeft
  rcases a.maxIter with _ | n <;> rcases a.maxTime with _ | _ | _ <;> simp [Limit.exceeds]

theorem exceeds_rounds (a : RunArgs) (k : Nat) : a.limits.1.exceeds (k : ℚ) = true ↔ RoundsLeft a k := by
  unfold RunArgs.limits RoundsLeft
  rcases a.maxIter with _ | _ | _ <;> rcases a.maxTime with _ | _ <;> simp [Limit.exceeds]

/-- C38. Let `k` be the number of acquisitions of a completed run. There are states `at 0, …, at k`
of the object at the beginning of the rounds, with the data collected so far and the time between two
readings of the clock, a later one for a later round. In every round `i < k`
the time budget was not exhausted, the model could be fitted, the iteration budget was not reached
and the last two locations were further apart than `eps`; and the first of these conditions to fail
in round `k` is the reported one. -/
theorem C38_stop_conditions (env : BOEnv) (a : RunArgs) (fuel : Nat) (s s' : BOState) (why : Stop)
    (h : runOptimization env a fuel s = (s', .done why)) :
    ∃ (batches : List (Mat × Vec)) (at_ : Nat → BOState) (t : Nat → Nat),
      s'.numAcq = batches.length ∧ s'.X = (at_ s'.numAcq).X ∧
      (∀ i ≤ s'.numAcq, (at_ i).numAcq = i ∧ (at_ i).X = s.X ++ ((batches.take i).map Prod.fst).flatten ∧
        (at_ i).cumTime = env.clock (t i) - env.clock (t 0) ∧ ∀ j < i, t j < t i) ∧
      (∀ i < s'.numAcq, TimeLeft a (at_ i).cumTime ∧
        (updateModel env (at_ i)).2 = .ok () ∧ RoundsLeft a i ∧
        ¬ CloseLast a.eps (at_ i).X ∧
        (env.suggest (updateModel env (at_ i)).1 none none).toOption = batches[i]?.map Prod.fst) ∧
      (why = .time → ¬ TimeLeft a (at_ s'.numAcq).cumTime) ∧
      (why = .fit → TimeLeft a (at_ s'.numAcq).cumTime ∧
          (updateModel env (at_ s'.numAcq)).2 = .error .linAlg) ∧
      (why = .limit → TimeLeft a (at_ s'.numAcq).cumTime ∧
          (updateModel env (at_ s'.numAcq)).2 = .ok () ∧
          (¬ RoundsLeft a s'.numAcq ∨ CloseLast a.eps (at_ s'.numAcq).X)) := by
  obtain ⟨obj, s0, bs, sk, s2, Y, r, ho, -, hst, htr, -, hsp, -, -, rfl⟩ := runOptimization_done h
  obtain ⟨Y0, new, hY0, -, -⟩ := hst.Y
  obtain ⟨t0, htk, ht0⟩ := hst.timeZero
  have hall : ∀ i, i ≤ bs.length → ∃ si, Trace env obj a.limits.1 a.limits.2 a.eps s0 (bs.take i) si := by
    intro i hi
    rcases Nat.lt_or_ge i bs.length with hlt | hge
    · obtain ⟨si, -, h1, -⟩ := htr.split hlt
      exact ⟨si, h1⟩
    · rw [List.take_of_length_le hge]
      exact ⟨sk, htr⟩
  have hall' : ∀ i, ∃ si : BOState, i ≤ bs.length →
      Trace env obj a.limits.1 a.limits.2 a.eps s0 (bs.take i) si := by
    intro i
    by_cases hi : i ≤ bs.length
    · obtain ⟨si, hsi⟩ := hall i hi
      exact ⟨si, fun _ => hsi⟩
    · exact ⟨s0, fun hi' => absurd hi' hi⟩
  choose at_ hat using hall'
  have hk : at_ bs.length = sk := by
    have := hat bs.length le_rfl
    rw [List.take_length] at this
    exact this.det htr
  have h0 : at_ 0 = s0 := (hat 0 (Nat.zero_le _)).det (.nil s0)
  have hstep : ∀ i, i < bs.length → 0 < (at_ (i + 1)).world.ticks ∧
      (at_ i).world.ticks < (at_ (i + 1)).world.ticks ∧
      (at_ (i + 1)).cumTime = env.clock ((at_ (i + 1)).world.ticks - 1) - env.clock t0 := by
    intro i hi
    obtain ⟨si, si', g1, g2, -, g4⟩ := htr.split hi
    obtain ⟨t, h1, h2, h3⟩ := g2.cumTime
    rw [(hat (i + 1) hi).det g4, (hat i hi.le).det g1, h1, h3, (g1.data hY0).2.2.2.2.2.2.2.1, ht0]
    exact ⟨by omega, by omega, rfl⟩
  have hmono : ∀ i, i ≤ bs.length → ∀ j < i, (at_ j).world.ticks - 1 < (at_ i).world.ticks - 1 := by
    intro i
    induction i with
    | zero => omega
    | succ i ih =>
      intro hi j hj
      have h1 := hstep i (by omega)
      have hpos : 0 < (at_ i).world.ticks := by
        rcases i with _ | i
        · rw [h0, htk]; omega
        · exact (hstep i (by omega)).1
      rcases Nat.lt_succ_iff_lt_or_eq.1 hj with hj | rfl
      · have := ih (by omega) j hj
        omega
      · omega
  have hd := htr.data hY0
  have hnum : s2.numAcq = bs.length := by
    obtain ⟨ps, fs, rfl⟩ := hsp.frame
    simpa [hst.numAcq] using hd.2.2.2.2.2.1
  have hX2 : s2.X = sk.X := by obtain ⟨ps, fs, rfl⟩ := hsp.frame; rfl
  simp only
  rw [hnum]
  refine ⟨bs, at_, fun i => (at_ i).world.ticks - 1, rfl, ?_, ?_, ?_, ?_⟩
  · rw [hk]; exact hX2
  · intro i hi
    obtain ⟨e1, -, -, -, -, e6, -⟩ := (hat i hi).data hY0
    refine ⟨?_, ?_, ?_, hmono i hi⟩
    · rw [e6, hst.numAcq, List.length_take]; omega
    · rw [e1, hst.X]; rfl
    · beta_reduce
      rw [h0, htk, Nat.add_sub_cancel]
      rcases i with _ | i
      · rw [h0, htk, hst.cumTime, Nat.add_sub_cancel, sub_self]
      · exact (hstep i hi).2.2
  · intro i hi
    obtain ⟨si, si', g1, g2, -, -⟩ := htr.split hi
    rw [(hat i hi.le).det g1]
    have hi' : si.numAcq = i := by
      obtain ⟨-, -, -, -, -, e6, -⟩ := g1.data hY0
      rw [e6, hst.numAcq, List.length_take]; omega
    refine ⟨(exceeds_time a _).1 g2.time, g2.fitted, ?_, ?_, ?_⟩
    · rw [← exceeds_rounds, ← hi']; exact g2.budget
    · rw [← lastTwoClose_iff, g2.apart]; simp
    · rw [g2.suggested, List.getElem?_eq_getElem hi]; rfl
  · rw [hk]
    have hkn : (sk.numAcq : ℚ) = (bs.length : ℚ) := by
      rw [hd.2.2.2.2.2.1, hst.numAcq]; simp
    refine ⟨fun hw => ?_, fun hw => ?_, fun hw => ?_⟩
    · rw [← exceeds_time, hsp.time.1 hw]; simp
    · rw [← exceeds_time]; exact hsp.fit.1 hw
    · obtain ⟨e1, e2, e3⟩ := hsp.limit.1 hw
      rw [lastTwoClose_iff, hkn] at e3
      refine ⟨(exceeds_time a _).1 e1, e2, e3.imp (fun e => ?_) id⟩
      rw [← exceeds_rounds, e]; simp

end GPyOpt.Props
