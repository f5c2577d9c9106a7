import Verif.Props.NoRepeat

/-!
# Properties C105, C106: ask and tell, exhaustive search
-/

namespace GPyOpt.Props

open GPyOpt Spec

/-! ## C105: ask and tell -/

/-- The user's own loop with an objective evaluated outside of the library: a new object on the data so
far, a suggestion, its outputs `f`, and so on. -/
def askTell (env : BOEnv) (f : Vec → ℚ) (c : Option Context) (cost : CostArg) :
    Nat → Mat × Vec → Py (Mat × Vec)
  | 0, d => .ok d
  | k + 1, d => match (suggestNext env c none none (boInit d.1 (some d.2) cost)).2 with
    | .error e => .error e
    | .ok m => askTell env f c cost k (d.1 ++ m, d.2 ++ m.map f)

/-- The components of the optimizer: the outcome of a fit depends on the data of the fit, and a suggestion
on the context, the data and the data of the last fit. -/
structure LastFit (env : BOEnv) : Prop where
  fit : ∃ φ : Mat → Vec → Py Unit, ∀ s X Y, env.fit s X Y = φ X Y
  params : ∀ s, ∃ p, env.params s = .ok p
  suggest : ∃ π : Option Context → Mat → Option Vec → Option (Mat × Vec) → Py Mat,
    ∀ s, env.suggest s none none = π s.context s.X s.Y (s.fits.getLast?.map fun f => (f.X, f.Y))

theorem evalFunc_pure (f : Vec → ℚ) (clock : Nat → ℚ) (m : Mat) (w : World) :
    ∃ w' ts, evalFunc (fun _ x => .ok (f x)) clock m w = (w', .ok (m.map f, ts)) := by
  induction m generalizing w with
  | nil => exact ⟨w, [], rfl⟩
  | cons x m ih =>
    obtain ⟨w', ts, h⟩ := ih { calls := w.calls ++ [(x, .ok (f x))], ticks := w.ticks + 2 }
    exact ⟨w', (clock (w.ticks + 1) - clock w.ticks) :: ts, by simp only [evalFunc, h, List.map_cons]⟩

theorem round_values {env : BOEnv} {f : Vec → ℚ} {mi mt : Limit} {eps : ℚ} {s s1 : BOState} {m : Mat}
    {ys : Vec} (hr : boRound env (fun _ x => .ok (f x)) mi mt eps s = .next s1)
    (hs : RoundSpec env (fun _ x => .ok (f x)) mi mt eps s m ys s1) : ys = m.map f := by
  obtain ⟨Y, hY, hY1⟩ := hs.Y
  have hu := hs.suggested
  unfold boRound at hr
  rw [if_pos hs.time] at hr
  rcases hup : updateModel env s with ⟨s2, r⟩
  have hfit := hs.fitted
  rw [hup] at hr hu hfit
  simp only at hfit hu
  subst hfit
  simp only at hr
  obtain ⟨ps, fs, hfr⟩ := updateModel_frame hup
  split_ifs at hr with hstop
  rw [hu] at hr
  simp only at hr
  obtain ⟨w', ts, he⟩ := evalFunc_pure f env.clock m s2.world
  unfold evaluateObjective at hr
  simp only [he] at hr
  rcases hc : s2.cost.update env.lg (env.costFit { s2 with X := s2.X ++ m }) m (.list ts) with ⟨c, e | u⟩
  · rw [hc] at hr; simp at hr
  · rw [hc] at hr
    have hY2 : s2.Y = some Y := by rw [hfr]; exact hY
    simp only [hY2, Round.next.injEq] at hr
    rw [← hr] at hY1
    simp only [Option.some.injEq] at hY1
    exact (List.append_cancel_left hY1).symm

theorem newFits_last {env : BOEnv} (hI : env.interval = 1) {s s1 : BOState}
    (h : updateModel env s = (s1, .ok ())) : ∃ Xm Y, env.sp.unzipInputs s.X = .ok Xm ∧ s.Y = some Y ∧
      s1.fits.getLast?.map (fun f => (f.X, f.Y)) = some (Xm, env.modelY Y) ∧
      env.fit s Xm (env.modelY Y) = .ok () := by
  have hmod : (s.numAcq : Int) % env.interval = 0 := by rw [hI]; exact Int.emod_one _
  have h0 : ¬ env.interval = 0 := by rw [hI]; decide
  obtain ⟨p, hp⟩ := updateModel_ok h
  unfold updateModel at h
  rw [if_neg h0, if_pos hmod] at h
  cases hx : env.sp.unzipInputs s.X with
  | error e => simp [hx] at h
  | ok Xm =>
    cases hY : s.Y with
    | none => simp [hx, hY] at h
    | some Y =>
      simp only [hx, hY] at h
      refine ⟨Xm, Y, rfl, rfl, ?_, ?_⟩
      · rw [hp]
        simp [newFits, hmod, hx, hY]
      · cases hf : env.fit s Xm (env.modelY Y) with
        | error e => simp [hf] at h
        | ok u => rfl

/-- C105. If the model is refitted in every iteration, and the components depend on the data and the last
fit only, then a completed run with any budgets makes exactly the suggestions that a user gets who makes a
new object on the data in every iteration, asks it for the next locations and evaluates them outside: the
data are the same. -/
theorem C105_ask_tell (env : BOEnv) (hd : LastFit env) (hI : env.interval = 1) (f : Vec → ℚ)
    (hobj : env.obj = some fun _ x => .ok (f x)) (a : RunArgs) (fuel : Nat) (s s' : BOState) (Y0 : Vec)
    (hY : s.Y = some Y0) (why : Stop) (h : runOptimization env a fuel s = (s', .done why))
    (cost : CostArg) :
    ∃ Y', s'.Y = some Y' ∧
      askTell { env with obj := none } f a.context cost s'.numAcq (s.X, Y0) = .ok (s'.X, Y') := by
  obtain ⟨obj, s0, bs, sk, s2, Y, r, ho, -, hst, htr, -, hsp, hY2, -, rfl⟩ := runOptimization_done h
  rw [hobj] at ho
  injection ho with ho
  subst ho
  obtain ⟨φ, hφ⟩ := hd.fit
  obtain ⟨π, hπ⟩ := hd.suggest
  have key : ∀ {s s' : BOState} {bs : List (Mat × Vec)},
      Trace env (fun _ x => .ok (f x)) a.limits.1 a.limits.2 a.eps s bs s' → ∀ Y, s.Y = some Y →
      s.context = a.context → ∃ Y', s'.Y = some Y' ∧
        askTell { env with obj := none } f a.context cost bs.length (s.X, Y) = .ok (s'.X, Y') := by
    intro s s' bs ht
    induction ht with
    | nil s => intro Y hY _; exact ⟨Y, hY, rfl⟩
    | @cons s s1 s' m ys bs hr hs ht ih =>
      intro Y hY hctx
      obtain ⟨Y', hY', hY1⟩ := hs.Y
      rw [hY] at hY'
      cases hY'
      obtain ⟨Y'', e1, e2⟩ := ih _ hY1 (by rw [hs.context, hctx])
      refine ⟨Y'', e1, ?_⟩
      have hys := round_values hr hs
      rcases hup : updateModel env s with ⟨t, q⟩
      have hfit := hs.fitted
      have hsug := hs.suggested
      rw [hup] at hfit hsug
      simp only at hfit hsug
      subst hfit
      obtain ⟨Xm, Y1, g1, g2, g3, g4⟩ := newFits_last hI hup
      rw [hY] at g2
      cases g2
      obtain ⟨p0, hp0⟩ := updateModel_ok hup
      rw [hπ, g3] at hsug
      have hask : (suggestNext { env with obj := none } a.context none none (boInit s.X (some Y) cost)).2
          = .ok m := by
        unfold suggestNext
        simp only
        have hu : ∃ u, updateModel { env with obj := none }
            { boInit s.X (some Y) cost with params := none, numAcq := 0, context := a.context } = (u, .ok ()) ∧
            u.X = s.X ∧ u.Y = some Y ∧ u.context = a.context ∧
            u.fits.getLast?.map (fun f => (f.X, f.Y)) = some (Xm, env.modelY Y) := by
          have h0 : ¬ env.interval = 0 := by rw [hI]; decide
          have hm : ((0 : Nat) : Int) % env.interval = 0 := by simp
          unfold updateModel
          simp only [if_neg h0, if_pos hm, boInit, g1]
          have hf : ∀ st, env.fit st Xm (env.modelY Y) = .ok () := fun st => by
            rw [hφ, ← hφ s]; exact g4
          have hmy : BOEnv.modelY { env with obj := none } Y = env.modelY Y := rfl
          rw [hmy]
          simp only [hf]
          unfold saveParams
          obtain ⟨p, hp⟩ := hd.params
            { X := s.X, Y := some Y, cost := costModelInit cost, world := { calls := [], ticks := 0 },
              params := none, numAcq := 0, context := a.context,
              fits := [{ acq := 0, X := Xm, Y := env.modelY Y }] }
          simp only [List.nil_append, hp]
          exact ⟨_, rfl, rfl, rfl, rfl, rfl⟩
        obtain ⟨u, hu, u1, u2, u3, u4⟩ := hu
        rw [hu]
        simp only
        rw [hπ, u1, u2, u3, u4, ← hsug, hp0]
        simp only [hctx, hY]
      rw [List.length_cons]
      unfold askTell
      rw [hask]
      simp only
      rw [← hys, ← hs.X]
      exact e2
  obtain ⟨ps, fs, rfl⟩ := hsp.frame
  obtain ⟨Y0', new, hY0', -, hcase⟩ := hst.Y
  have hYY : Y0' = Y0 := by
    rcases hcase with ⟨h1, -⟩ | ⟨h1, -⟩
    · rw [hY] at h1; cases h1; rfl
    · rw [hY] at h1; cases h1
  subst hYY
  obtain ⟨-, -, -, -, -, d6, -⟩ := htr.data hY0'
  rw [hst.numAcq, Nat.zero_add] at d6
  obtain ⟨Y', e1, e2⟩ := key htr _ hY0' hst.context
  refine ⟨Y', e1, ?_⟩
  rw [hst.X] at e2
  simp only [d6]
  exact e2

/-- suggestions depend on the number of locations of the last fit -/
def exFitted (sp : Space) (interval : Int) : BOEnv :=
  { exBO sp with
    obj := some fun _ x => .ok ((x.headD 0 - 1/4) ^ 2)
    params := fun _ => .ok []
    suggest := fun s _ _ => .ok [[1 / ((((s.fits.getLast?.map fun f => (f.X, f.Y)).map
      fun f => f.1.length).getD 0 : ℚ) + 1)]]
    interval := interval }

/-- The hypotheses of `C105_ask_tell` are met. -/
example (sp : Space) : LastFit (exFitted sp 1) where
  fit := ⟨fun _ _ => .ok (), fun _ _ _ => rfl⟩
  params := fun _ => ⟨_, rfl⟩
  suggest := ⟨fun _ _ _ f => .ok [[1 / (((f.map fun f => f.1.length).getD 0 : ℚ) + 1)]], fun _ => rfl⟩

/-- A run and the user's own loop. With `model_update_interval = 2` they differ: the run repeats a
suggestion of a model that does not know the last evaluation (so the assumption of C105 on the interval
is needed). -/
example : ((designSpace exLine none).map fun sp =>
      let f : Vec → ℚ := fun x => (x.headD 0 - 1/4) ^ 2
      ((runOptimization (exFitted sp 1) { maxIter := some (.fin 2) } 10
          (boInit [[0], [1]] (some [1/16, 9/16]) .none)).1.X,
        (askTell (exFitted sp 1) f none .none 2 ([[0], [1]], [1/16, 9/16])).map Prod.fst))
    = .ok ([[0], [1], [1/3], [1/4]], .ok [[0], [1], [1/3], [1/4]]) ∧
    ((designSpace exLine none).map fun sp =>
      let f : Vec → ℚ := fun x => (x.headD 0 - 1/4) ^ 2
      ((runOptimization (exFitted sp 2) { maxIter := some (.fin 2) } 10
          (boInit [[0], [1]] (some [1/16, 9/16]) .none)).1.X,
        (askTell (exFitted sp 2) f none .none 2 ([[0], [1]], [1/16, 9/16])).map Prod.fst))
    = .ok ([[0], [1], [1/3], [1/3]], .ok [[0], [1], [1/3], [1/4]]) := by
  decide +kernel

/-! ## C106: exhaustive search of finite domains -/

/-- The rows are different points of the domain `D`, and the outputs are the values of `f` there. -/
structure Explored (D : Mat) (f : Vec → ℚ) (s : BOState) : Prop where
  nodup : s.X.Nodup
  mem : ∀ z ∈ s.X, z ∈ D
  Y : s.Y = some (s.X.map f)

theorem explored_step {config : List Desc} {cs : Option (List ConstrDict)} {sp : Space}
    (h : designSpace config cs = .ok sp) (hb : sp.hasBandit = false)
    (hs : ∀ k ∈ kindsOf config, Samplable k) (hvar : kindsOf config ≠ [])
    {D : Mat} (hD : ∀ x, x ∈ D ↔ ObjDomain (kindsOf config) x) {f : Vec → ℚ}
    {envs : BOState → EvalEnv} (henvs : ∀ s, GoodEnv (envs s)) {env : BOEnv}
    (hsug : env.suggest = stdSuggest sp .sequential envs true) {mi mt : Limit} {eps : ℚ}
    {s s' : BOState} {bs : List (Mat × Vec)}
    (ht : Trace env (fun _ x => .ok (f x)) mi mt eps s bs s') (hg : ValidContext sp s.context)
    (he : Explored D f s) :
    Explored D f s' ∧ s'.X.length = s.X.length + bs.length ∧ s'.context = s.context := by
  induction ht with
  | nil s => exact ⟨he, by simp, rfl⟩
  | @cons s s1 s' m ys bs hr hsp ht ih =>
    have hys := round_values hr hsp
    obtain ⟨ps, fs, hfr⟩ := updateModel_frame (env := env) (s := s) (s1 := (updateModel env s).1)
      (r := (updateModel env s).2) (by rfl)
    have hm := hsp.suggested
    rw [hsug] at hm
    unfold stdSuggest at hm
    have hc1 : (updateModel env s).1.context = s.context := by rw [hfr]
    have hX1 : (updateModel env s).1.X = s.X := by rw [hfr]
    rw [hc1, hX1] at hm
    obtain ⟨z, rfl, hz, -, hfresh⟩ := C28_sequential_partial h hb hs hvar _ hg _ (henvs _).op (henvs _).acq
      true s.X none none m hm
    have hnew := (hfresh rfl).1
    obtain ⟨Y, hY, hY1⟩ := hsp.Y
    rw [he.Y] at hY
    cases hY
    have he1 : Explored D f s1 := by
      refine ⟨?_, ?_, ?_⟩
      · rw [hsp.X, List.nodup_append]
        refine ⟨he.nodup, by simp, ?_⟩
        intro a ha b hb hab
        rw [List.mem_singleton] at hb
        subst hab; subst hb
        exact hnew ha
      · intro x hx
        rw [hsp.X] at hx
        rcases List.mem_append.1 hx with hx | hx
        · exact he.mem x hx
        · rw [List.mem_singleton] at hx
          subst hx
          exact (hD _).2 hz
      · rw [hY1, hsp.X, hys]; simp
    obtain ⟨i1, i2, i3⟩ := ih (by rw [hsp.context]; exact hg) he1
    refine ⟨i1, ?_, by rw [i3, hsp.context]⟩
    rw [i2, hsp.X]
    simp only [List.length_append, List.length_cons, List.length_nil]
    omega

/-- different points of the domain have a distance above `eps` -/
def Separated (D : Mat) (eps : ℚ) : Prop :=
  ∀ x ∈ D, ∀ y ∈ D, x ≠ y →
    (eps : ℝ) < Real.sqrt ((List.zipWith (fun u v : ℚ => ((u : ℝ) - v) ^ 2) x y).sum)

theorem explored_apart {D : Mat} {f : Vec → ℚ} {s : BOState} {eps : ℚ} (he : Explored D f s)
    (hsep : Separated D eps) : lastTwoClose eps s.X = false := by
  by_contra hcl
  rw [Bool.not_eq_false] at hcl
  rw [lastTwoClose_iff] at hcl
  obtain ⟨pre, b, a, hX, hle⟩ := hcl
  have hab : a ≠ b := by
    have := he.nodup
    rw [hX, List.nodup_append] at this
    have h2 := this.2.1
    simp at h2
    exact fun e => h2 e.symm
  have ha : a ∈ D := he.mem a (by rw [hX]; simp)
  have hb : b ∈ D := he.mem b (by rw [hX]; simp)
  exact absurd hle (not_le.2 (hsep a ha b hb hab))

/-- start of a run on data of the domain -/
theorem values_start {f : Vec → ℚ} {env : BOEnv} {a : RunArgs} {s s0 : BOState}
    (hY : s.Y = none ∨ s.Y = some (s.X.map f))
    (hst : runStart env (fun _ x => .ok (f x)) a s = (s0, .ok ())) : s0.Y = some (s.X.map f) := by
  rcases hY with hY | hY
  · unfold runStart at hst
    simp only [hY] at hst
    obtain ⟨w, ts, hw⟩ := evalFunc_pure f env.clock s.X s.world
    rw [hw] at hst
    simp only at hst
    split_ifs at hst with hk
    · rcases hc : s.cost.update env.lg (env.costFit { s with params := none, context := a.context, world := w, Y := some (s.X.map f) }) s.X (.list ts) with ⟨c, e | u⟩
      · rw [hc] at hst; simp at hst
      · rw [hc] at hst
        simp only [Prod.mk.injEq, and_true] at hst
        rw [← hst]
    · simp only [Prod.mk.injEq, and_true] at hst
      rw [← hst]
  · unfold runStart at hst
    simp only [hY, Prod.mk.injEq, and_true] at hst
    rw [← hst]

theorem explored_start {D : Mat} {f : Vec → ℚ} {env : BOEnv} {a : RunArgs} {s s0 : BOState}
    (hX : s.X.Nodup) (hXD : ∀ z ∈ s.X, z ∈ D) (hY : s.Y = none ∨ s.Y = some (s.X.map f))
    (hst : runStart env (fun _ x => .ok (f x)) a s = (s0, .ok ())) : Explored D f s0 := by
  have hsp := runStart_ok hst
  exact ⟨by rw [hsp.X]; exact hX, by rw [hsp.X]; exact hXD, by rw [hsp.X]; exact values_start hY hst⟩

/-- C106 (partial: the run may end with `FullyExploredOptimizationDomainError` although points are left, see
`C106_gives_up_counterexample`). Domain with finitely many points `D`, sequential evaluator with
de-duplication, deterministic objective `f`, initial data of different points of the domain. A completed run
has evaluated different points of the domain and reports the best of them. If the budget was `n`
iterations without a limit of time, the distances are above `eps` and the fits did not fail, then it has
evaluated exactly `n` new points, in particular `n` is at most the number of points that were left; if `n` is
that number then the reported optimum is the minimum of `f` over the whole domain. -/
theorem C106_exhaustive_partial {config : List Desc} {cs : Option (List ConstrDict)} {sp : Space}
    (h : designSpace config cs = .ok sp) (hb : sp.hasBandit = false)
    (hs : ∀ k ∈ kindsOf config, Samplable k) (hvar : kindsOf config ≠ [])
    (D : Mat) (hD : ∀ x, x ∈ D ↔ ObjDomain (kindsOf config) x) (f : Vec → ℚ)
    (envs : BOState → EvalEnv) (henvs : ∀ s, GoodEnv (envs s)) (env : BOEnv)
    (hsug : env.suggest = stdSuggest sp .sequential envs true)
    (hobj : env.obj = some fun _ x => .ok (f x))
    (a : RunArgs) (hg : ValidContext sp a.context) (fuel : Nat) (s s' : BOState)
    (hX : s.X.Nodup) (hXD : ∀ z ∈ s.X, z ∈ D) (hY : s.Y = none ∨ s.Y = some (s.X.map f)) (why : Stop)
    (hrun : runOptimization env a fuel s = (s', .done why)) :
    ∃ (r : Results) (new : Mat), s'.results = some r ∧ s'.X = s.X ++ new ∧ s'.X.Nodup ∧
      (∀ z ∈ s'.X, z ∈ D) ∧ s'.Y = some (s'.X.map f) ∧ new.length = s'.numAcq ∧
      s.X.length + s'.numAcq ≤ D.length ∧
      r.xOpt ∈ s'.X ∧ f r.xOpt = r.fxOpt ∧ (∀ z ∈ s'.X, r.fxOpt ≤ f z) ∧
      (∀ n : Nat, a.maxIter = some (.fin n) → a.maxTime = none → Separated D a.eps → why = .limit →
        s'.numAcq = n) ∧
      (s.X.length + s'.numAcq = D.length → IsMin (D.map f) r.fxOpt) := by
  obtain ⟨r, Y, i, hr, hYr, hmin, hYi, hXi, -⟩ := C39_reported_optimum env a fuel s s' why hrun
  obtain ⟨batches, -, hbx, -, -, hbud⟩ := C37_iteration_budget env a fuel s s' why hrun
  obtain ⟨obj, s0, bs, sk, s2, Y2, r2, ho, hstart, hst, htr, -, hsp, hY2, -, rfl⟩ := runOptimization_done hrun
  rw [hobj] at ho
  injection ho with ho
  subst ho
  have he0 := explored_start (D := D) hX hXD hY hstart
  obtain ⟨he, hlen, -⟩ := explored_step h hb hs hvar hD henvs hsug htr (by rw [hst.context]; exact hg) he0
  obtain ⟨-, -, -, -, -, d6, -⟩ := htr.data he0.Y
  rw [hst.numAcq, Nat.zero_add] at d6
  rw [hst.X] at hlen
  obtain ⟨ps, fs, rfl⟩ := hsp.frame
  simp only at hr hYr hXi hbx hbud ⊢
  have hYr' := hYr
  rw [he.Y] at hYr'
  injection hYr' with hYr'
  subst hYr'
  have hsub : sk.X ⊆ D := he.mem
  have hle : sk.X.length ≤ D.length := (he.nodup.subperm hsub).length_le
  refine ⟨r, (batches.map Prod.fst).flatten, hr, hbx, he.nodup, he.mem, he.Y, ?_, ?_, ?_, ?_, ?_, ?_, ?_⟩
  · have := congrArg List.length hbx
    rw [hlen, List.length_append] at this
    omega
  · omega
  · exact List.mem_of_getElem? hXi
  · rw [List.getElem?_map, hXi] at hYi
    simpa using hYi
  · intro z hz
    exact hmin.2 _ (List.mem_map_of_mem hz)
  · intro n hn ht hsep hw
    subst hw
    have hlim : a.limits = (.fin (n : ℚ), .inf) := by simp [RunArgs.limits, hn, ht]
    obtain ⟨-, -, e3⟩ := hsp.limit.1 rfl
    rw [explored_apart he hsep, hlim] at e3
    simp only [Bool.false_eq_true, or_false, Limit.exceeds, decide_eq_false_iff_not, not_lt] at e3
    have : n ≤ sk.numAcq := by exact_mod_cast e3
    exact le_antisymm (hbud n hn) this
  · intro hfull
    have hperm : sk.X.Perm D := by
      refine (he.nodup.subperm hsub).perm_of_length_le ?_
      omega
    have hpm := hperm.map f
    exact ⟨hpm.mem_iff.1 hmin.1, fun v hv => hmin.2 v (hpm.mem_iff.2 hv)⟩

/-- The components of an optimizer on an unconstrained space with the sequential evaluator and
de-duplication that do not raise. -/
structure Reliable (sp : Space) (env : BOEnv) (envs : BOState → EvalEnv) : Prop where
  space : env.sp = sp
  suggest : env.suggest = stdSuggest sp .sequential envs true
  fit : ∀ s X Y, env.fit s X Y = .ok ()
  params : ∀ s, ∃ p, env.params s = .ok p
  interval : env.interval ≠ 0
  good : ∀ s, GoodEnv (envs s)
  name : ∀ s, (envs s).op.optimizerName ∈ ["lbfgs", "DIRECT", "CMA"]
  logic : ∀ s, (envs s).op.anchorLogic ∈ ["max_objective", "thompson_sampling"]
  acq : ∀ s x, ∃ v, (envs s).f x = .ok v
  opt : ∀ s k g x, ∃ y, (envs s).oracle.acq.opt k g x = .ok y
  thompson : ∀ s X, ∃ y, (envs s).oracle.acq.thompson X = .ok y

/-- C106, progress. With components that do not raise, and different points at distances above `eps`, a run with
a budget of `n` iterations does all of them, or raises the error of the fully explored domain; nothing
else happens. -/
theorem C106_progress {config : List Desc} {sp : Space}
    (h : designSpace config none = .ok sp) (hb : sp.hasBandit = false)
    (hs : ∀ k ∈ kindsOf config, Samplable k) (hvar : kindsOf config ≠ [])
    (D : Mat) (hD : ∀ x, x ∈ D ↔ ObjDomain (kindsOf config) x) (f : Vec → ℚ)
    (envs : BOState → EvalEnv) (env : BOEnv) (hr : Reliable sp env envs)
    (hobj : env.obj = some fun _ x => .ok (f x))
    (a : RunArgs) (hg : ValidContext sp a.context) (n : Nat) (hn : a.maxIter = some (.fin n))
    (ht : a.maxTime = none) (hsep : Separated D a.eps) (fuel : Nat) (hfuel : n < fuel) (s : BOState)
    (hne : s.X ≠ []) (hX : s.X.Nodup) (hXD : ∀ z ∈ s.X, z ∈ D)
    (hY : s.Y = none ∨ s.Y = some (s.X.map f)) (hcost : s.cost.kind ≠ .evaluationTime) :
    ((runOptimization env a fuel s).2 = .done .limit ∧ (runOptimization env a fuel s).1.numAcq = n) ∨
      (runOptimization env a fuel s).2 = .raised .fullyExplored := by
  have hrunning := C37_terminates env a s n hn fuel hfuel
  rcases hrun : runOptimization env a fuel s with ⟨s', q⟩
  have hq := hrun
  rw [hrun] at hrunning
  have hlim : a.limits = (.fin (n : ℚ), .inf) := by simp [RunArgs.limits, hn, ht]
  have hupd : ∀ t : BOState, t.X ≠ [] → Explored D f t → (updateModel env t).2 = .ok () := by
    intro t hne he
    have hu := (C01_zip_unzip h hb t.X hne (fun r hr =>
      ((hD r).1 (he.mem r hr)).imp fun _ _ hv => encodable_of_validObj hv)).1
    unfold updateModel
    rw [if_neg hr.interval, hr.space, hu, he.Y]
    simp only [hr.fit]
    unfold saveParams
    split_ifs
    · obtain ⟨p, hp⟩ := hr.params { t with
        Y := some (t.X.map f)
        fits := t.fits ++ [{ acq := t.numAcq, X := t.X.map (encodeRow (kindsOf config)), Y := env.modelY (t.X.map f) }] }
      rw [hp]
      cases t.params <;> rfl
    · obtain ⟨p, hp⟩ := hr.params t
      rw [hp]
      cases t.params <;> rfl
  cases q with
  | running => exact absurd rfl hrunning
  | done why =>
    left
    obtain ⟨r, new, -, h1, -, -, -, -, -, -, -, -, hnum, -⟩ :=
      C106_exhaustive_partial h hb hs hvar D hD f envs hr.good env hr.suggest hobj a hg fuel s s' hX hXD hY why
        hrun
    obtain ⟨obj, s0, bs, sk, s2, Y2, r2, ho, hstart, hst, htr, -, hsp, hY2, -, rfl⟩ := runOptimization_done hrun
    rw [hobj] at ho
    injection ho with ho
    subst ho
    have he0 := explored_start (D := D) hX hXD hY hstart
    obtain ⟨he, hlen, -⟩ := explored_step h hb hs hvar hD hr.good hr.suggest htr (by rw [hst.context]; exact hg) he0
    have hne' : sk.X ≠ [] := by
      intro h0
      rw [h0, hst.X] at hlen
      have : s.X.length ≠ 0 := fun h0 => hne (List.length_eq_zero_iff.1 h0)
      simp only [List.length_nil] at hlen
      omega
    have hw : why = .limit := by
      cases why with
      | limit => rfl
      | time =>
        have := hsp.time.1 rfl
        rw [hlim] at this
        simp [Limit.exceeds] at this
      | fit =>
        have := (hsp.fit.1 rfl).2
        rw [hupd sk hne' he] at this
        cases this
    subst hw
    exact ⟨rfl, hnum n hn ht hsep rfl⟩
  | raised e =>
    right
    unfold runOptimization at hq
    rw [hobj] at hq
    simp only at hq
    have hupo : ∀ fit x ts, s.cost.update env.lg fit x ts = (s.cost, .ok ()) := fun _ _ _ => update_other hcost
    rcases hstart : runStart env (fun _ x => .ok (f x)) a s with ⟨s0, q0⟩
    have hq0 : q0 = .ok () ∧ s0.cost = s.cost := by
      unfold runStart at hstart
      rcases hY with hY | hY
      · obtain ⟨w, ts, hw⟩ := evalFunc_pure f env.clock s.X s.world
        simp only [hY, hw] at hstart
        rw [if_neg hcost] at hstart
        simp only [Prod.mk.injEq] at hstart
        exact ⟨hstart.2.symm, by rw [← hstart.1]⟩
      · simp only [hY, Prod.mk.injEq] at hstart
        exact ⟨hstart.2.symm, by rw [← hstart.1]⟩
    obtain ⟨rfl, hc0⟩ := hq0
    rw [hstart] at hq
    simp only at hq
    have hst := runStart_ok hstart
    have he0 := explored_start (D := D) hX hXD hY hstart
    rcases hl : boLoop env (fun _ x => .ok (f x)) a.limits.1 a.limits.2 a.eps fuel s0 with ⟨s2, q2⟩
    obtain ⟨bs, sk, htr, -, hend⟩ := boLoop_trace hl
    obtain ⟨he, hlen, hctx⟩ := explored_step h hb hs hvar hD hr.good hr.suggest htr (by rw [hst.context]; exact hg) he0
    have hne' : sk.X ≠ [] := by
      intro h0
      rw [h0, hst.X] at hlen
      have : s.X.length ≠ 0 := fun h0 => hne (List.length_eq_zero_iff.1 h0)
      simp only [List.length_nil] at hlen
      omega
    have hcst : ∀ {t t' : BOState} {bs : List (Mat × Vec)},
        Trace env (fun _ x => .ok (f x)) a.limits.1 a.limits.2 a.eps t bs t' →
        t.cost.kind ≠ .evaluationTime → t'.cost = t.cost := by
      intro t t' bs ht
      induction ht with
      | nil => exact fun _ => rfl
      | cons hr hs ht ih =>
        intro hk
        obtain ⟨ts, c', hcc⟩ := hs.cost
        rw [update_other hk] at hcc
        simp only [Prod.mk.injEq, and_true] at hcc
        rw [ih (by rw [← hcc]; exact hk), ← hcc]
    have hck : sk.cost.kind ≠ .evaluationTime := by
      rw [hcst htr (by rw [hc0]; exact hcost), hc0]; exact hcost
    rw [hl] at hq
    cases q2 with
    | running => simp at hq
    | done why =>
      obtain ⟨ps, fs, rfl⟩ := (boRound_stop hend).frame
      simp only [he.Y] at hq
      have hmne : sk.X.map f ≠ [] := by simpa using hne'
      obtain ⟨i, v, h1, h2, h3, -⟩ := argmin_spec hmne
      rw [List.length_map] at h2
      have hx : npGet sk.X i = .ok sk.X[i] := npGet_ok.2 (List.getElem?_eq_getElem h2)
      have hy : npGet (sk.X.map f) i = .ok v := npGet_ok.2 h3
      unfold computeResults at hq
      simp only [h1, hx, hy] at hq
      simp at hq
    | raised e' =>
      simp only [Prod.mk.injEq, RunResult.raised.injEq] at hq
      obtain ⟨rfl, rfl⟩ := hq
      unfold boRound at hend
      rw [if_pos (by rw [hlim]; rfl)] at hend
      have hu := hupd sk hne' he
      rcases hup : updateModel env sk with ⟨t, q⟩
      obtain ⟨ps, fs, hfr⟩ := updateModel_frame hup
      rw [hup] at hu hend
      simp only at hu
      subst hu
      simp only at hend
      split_ifs at hend with hstop
      have hsu : (∃ z, env.suggest t none none = .ok [z]) ∨ env.suggest t none none = .error .fullyExplored := by
        rw [hr.suggest]
        unfold stdSuggest
        rcases C28_suggestion_exists h hb hs hvar t.context (by rw [hfr]; show ValidContext sp sk.context; rw [hctx, hst.context]; exact hg) (envs t)
          (hr.good t).op (hr.name t) (hr.logic t) (hr.good t).acq (hr.acq t) (hr.opt t) (hr.thompson t) true t.X
          (.inl rfl) none none with hz | ⟨-, hz⟩
        · exact Or.inl hz
        · exact Or.inr hz
      rcases hsu with ⟨z, hz⟩ | hz
      · rw [hz] at hend
        simp only at hend
        obtain ⟨w, ts, hw⟩ := evalFunc_pure f env.clock [z] t.world
        have htc : t.cost.kind ≠ .evaluationTime := by rw [hfr]; exact hck
        have htY : t.Y = some (sk.X.map f) := by rw [hfr]; exact he.Y
        unfold evaluateObjective at hend
        simp only [hw, update_other htc, htY] at hend
        simp at hend
      · rw [hz] at hend
        simp only [Round.raised.injEq] at hend
        exact congrArg RunResult.raised hend.2.symm

/-- a discrete variable with the values 0, ..., k - 1 -/
def exGrid (k : Nat) : List Desc :=
  [{ name := some "d", type := some "discrete", domain := some (.flat ((List.range k).map fun i => (i : ℚ))) }]

/-- sequential evaluator with four samples; objective (x - 2)^2 -/
def exSearch (sp : Space) : BOEnv :=
  { exBO sp with
    obj := some fun _ x => .ok ((x.headD 0 - 2) ^ 2)
    suggest := stdSuggest sp .sequential (fun _ => exEnv) true }

/-- The components of the examples are reliable. -/
example (sp : Space) : Reliable sp (exSearch sp) (fun _ => exEnv) where
  space := rfl
  suggest := rfl
  fit := fun _ _ _ => rfl
  params := fun _ => ⟨_, rfl⟩
  interval := by show (2 : Int) ≠ 0; decide
  good := fun _ => ⟨⟨by decide, by decide, by decide⟩, exAcq_good, exAcq_good, by decide, by decide⟩
  name := fun _ => by simp [exEnv]
  logic := fun _ => by simp [exEnv]
  acq := fun _ _ => ⟨_, rfl⟩
  opt := fun _ _ _ _ => ⟨_, rfl⟩
  thompson := fun _ _ => ⟨_, rfl⟩

/-- The domain of the examples. -/
example : ∀ x, x ∈ ([[0], [1], [2], [3]] : Mat) ↔ ObjDomain (kindsOf (exGrid 4)) x := by
  have hk : kindsOf (exGrid 4) = [.discrete [0, 1, 2, 3]] := by decide +kernel
  intro x
  rw [hk]
  constructor
  · intro hx
    simp only [List.mem_cons, List.not_mem_nil, or_false] at hx
    rcases hx with rfl | rfl | rfl | rfl <;>
      exact .cons (by simp [ValidObj]) .nil
  · intro hx
    cases hx with
    | cons h1 h2 =>
      cases h2
      simpa [ValidObj] using h1

example : Separated [[0], [1], [2], [3]] (1 / 10 ^ 8) := by
  intro x hx y hy hxy
  have hle : (1 : ℝ) ≤ (List.zipWith (fun u v : ℚ => ((u : ℝ) - v) ^ 2) x y).sum := by
    simp only [List.mem_cons, List.not_mem_nil, or_false] at hx hy
    rcases hx with rfl | rfl | rfl | rfl <;> rcases hy with rfl | rfl | rfl | rfl <;>
      first | (exact absurd rfl hxy) | (simp; done) | (simp; norm_num)
  have := Real.one_le_sqrt.2 hle
  refine lt_of_lt_of_le ?_ this
  norm_num

/-- All four points of the domain are evaluated, and the optimum is found. -/
example : ((designSpace (exGrid 4) none).map fun sp =>
      let r := runOptimization (exSearch sp) { maxIter := some (.fin 3), maxTime := none } 10
        (boInit [[0]] none .none)
      (r.2, r.1.X, r.1.results.map fun q => (q.xOpt, q.fxOpt)))
    = .ok (.done .limit, [[0], [1], [2], [3]], some ([2], 0)) := by
  decide +kernel

/-- C106 (negation of the full property). The domain has six points; with four samples for the anchor points
a run of five iterations raises `FullyExploredOptimizationDomainError` when two points, one of them the optimum,
have never been evaluated. -/
theorem C106_gives_up_counterexample : ((designSpace (exGrid 6) none).map fun sp =>
      let r := runOptimization { exSearch sp with obj := some fun _ x => .ok (-(x.headD 0)) }
        { maxIter := some (.fin 5), maxTime := none } 10 (boInit [[0]] none .none)
      (r.2, r.1.X)) = .ok (.raised .fullyExplored, [[0], [1], [2], [3]]) := by
  decide +kernel

end GPyOpt.Props
