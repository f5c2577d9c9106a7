import Verif.Props.Constructor

/-!
# Property C139: what a whole optimization reports
-/

namespace GPyOpt.Props

open GPyOpt Spec

/-- The value `y` that is stored for an output `v` of the user's function. -/
def Stored (maximize : Bool) (v y : ℚ) : Prop := v = if maximize then -y else y

/-- `v` is at least as good as `v'`. -/
def Better (maximize : Bool) (v v' : ℚ) : Prop := if maximize then v' ≤ v else v ≤ v'

theorem signed_ok {maximize : Bool} {f : Nat → Vec → Py ℚ} {i : Nat} {x : Vec} {y : ℚ}
    (h : signed maximize f i x = .ok y) : f i x = .ok (if maximize then -y else y) := by
  unfold signed at h
  cases maximize with
  | false => simpa using h
  | true =>
    simp only [if_true] at h ⊢
    cases hf : f i x with
    | error e => simp [hf, Except.map] at h
    | ok v =>
      simp only [hf, Except.map, Except.ok.injEq] at h
      rw [← h, neg_neg]

theorem construct_aligned {a : BayesArgs} {f : Nat → Vec → Py ℚ} (hf : a.f = some f)
    (hXY : a.X = none ∨ a.Y = none) {config : List Desc} {cs : Option (List ConstrDict)} {o : DesignOracle}
    {clock : Nat → ℚ} {w : World} {b : BayesObj}
    (hcon : bayesConstruct a config cs o (sequentialEvaluate (signed a.maximize f) clock) = (w, .ok b)) :
    Aligned (signed a.maximize f) b.state.X none b.state := by
  obtain ⟨Y, hY, hw, h1, h2, h3⟩ := C94_initial_data a f hf config cs o clock w b hcon
  have hout : OutputsAt a.maximize f b.state.X Y w.calls := by
    cases hX : a.X with
    | none => exact (h3 hX).2
    | some X0 =>
      obtain ⟨e, h⟩ := h2 X0 hX (hXY.resolve_left (by simp [hX]))
      exact e ▸ h
  obtain ⟨g1, g2, g3⟩ := hout
  refine ⟨?_, b.state.X, Y, g1, by rw [hw, g2]; rfl, ?_⟩
  · intro j x r hj
    rw [hw, g2, List.getElem?_zip_eq_some] at hj
    obtain ⟨e1, e2⟩ := hj
    rw [List.getElem?_map, Option.map_eq_some_iff] at e2
    obtain ⟨y, e2, rfl⟩ := e2
    have := g3 j x y e1 e2
    unfold signed
    cases hm : a.maximize <;> simp_all [Except.map]
  · rw [hY]
    exact ⟨rfl, rfl, List.prefix_rfl⟩

theorem afterAll_append (env : BOEnv) (ops : List Op) (op : Op) (s : BOState) :
    afterAll env (ops ++ [op]) s = op.after env (afterAll env ops s) := by
  induction ops generalizing s with
  | nil => rfl
  | cons o ops ih => exact ih _

theorem allComplete_append {env : BOEnv} {ops : List Op} {op : Op} {s : BOState}
    (h : AllComplete env (ops ++ [op]) s) : op.Completes env (afterAll env ops s) := by
  induction ops generalizing s with
  | nil => exact h.1
  | cons o ops ih => exact ih h.2

/-- **C139.** A `BayesianOptimization` object that evaluates its initial locations itself, after any completed calls of which
the last one is a run. The rows of `X` are the arguments of the calls of the user's function, in the order of the calls;
`x_opt` is one of them; `fx_opt` is (up to the sign, if the user maximizes) what the function returned for it; and no call
returned anything better. -/
theorem C139_reported_is_best (a : BayesArgs) (f : Nat → Vec → Py ℚ) (hf : a.f = some f)
    (hXY : a.X = none ∨ a.Y = none) (config : List Desc) (cs : Option (List ConstrDict)) (o : DesignOracle)
    (clock : Nat → ℚ) (w : World) (b : BayesObj)
    (hcon : bayesConstruct a config cs o (sequentialEvaluate (signed a.maximize f) clock) = (w, .ok b))
    (env : BOEnv) (hobj : env.obj = some (signed a.maximize f)) (ops : List Op) (ra : RunArgs) (fuel : Nat)
    (hc : AllComplete env (ops ++ [.run ra fuel]) b.state) :
    let s := afterAll env (ops ++ [.run ra fuel]) b.state
    s.X = s.world.calls.map Prod.fst ∧ b.state.X <+: s.X ∧
    ∃ (r : Results) (i : Nat) (v : ℚ), s.results = some r ∧ s.X[i]? = some r.xOpt ∧ f i r.xOpt = .ok v ∧
      Stored a.maximize v r.fxOpt ∧
      ∀ (j : Nat) (x : Vec), s.X[j]? = some x → ∃ v', f j x = .ok v' ∧ Better a.maximize v v' := by
  intro s
  obtain ⟨hl, xs, ys, hlen, hcalls, hm⟩ := aligned_history hobj _ (construct_aligned hf hXY hcon) hc
  obtain ⟨why, hw⟩ := allComplete_append hc
  have hs : s = (runOptimization env ra fuel (afterAll env ops b.state)).1 := afterAll_append env ops _ _
  obtain ⟨r, Y, i, hr, hY, hmin, hYi, hXi, -⟩ := C39_reported_optimum env ra fuel (afterAll env ops b.state) s why
    (by rw [hs, ← hw])
  rw [show (afterAll env (ops ++ [.run ra fuel]) b.state) = s from rfl] at hm hcalls hl
  rw [hY] at hm
  obtain ⟨e1, rfl, hp⟩ := hm
  have hval : ∀ (j : Nat) (x : Vec), s.X[j]? = some x →
      ∃ y, Y[j]? = some y ∧ f j x = .ok (if a.maximize then -y else y) := by
    intro j x hx
    have hj : j < Y.length := by
      rw [hlen, ← e1]
      exact (List.getElem?_eq_some_iff.1 hx).1
    refine ⟨Y[j], List.getElem?_eq_getElem hj, signed_ok (hl j x (.ok Y[j]) ?_)⟩
    rw [hcalls, callsOf, List.getElem?_zip_eq_some]
    exact ⟨e1 ▸ hx, by simp [hj]⟩
  refine ⟨?_, hp, r, i, if a.maximize then -r.fxOpt else r.fxOpt, hr, hXi, ?_, rfl, ?_⟩
  · rw [hcalls, callsOf, List.map_fst_zip (by simp [hlen]), e1]
  · obtain ⟨y, h1, h2⟩ := hval i _ hXi
    rw [hYi] at h1
    rw [Option.some.inj h1]
    exact h2
  · intro j x hx
    obtain ⟨y, h1, h2⟩ := hval j x hx
    refine ⟨_, h2, ?_⟩
    have := hmin.2 y (List.mem_of_getElem? h1)
    unfold Better
    cases a.maximize <;> simpa using this

/-- **C139**, where: `x_opt` is a point of the domain. -/
theorem C139_reported_in_domain {config : List Desc} {cs : Option (List ConstrDict)} {sp : Space}
    (h : designSpace config cs = .ok sp) (hb : sp.hasBandit = false)
    (hs : ∀ k ∈ kindsOf config, Samplable k) (hvar : kindsOf config ≠ [])
    (a : BayesArgs) (f : Nat → Vec → Py ℚ) (hf : a.f = some f) (hX : a.X = none)
    (o : DesignOracle) (ho : UnitOracle o) (clock : Nat → ℚ)
    (ev : Evaluator) (deDup : Bool) (hev : GoodEvaluator deDup ev)
    (envs : BOState → EvalEnv) (henvs : ∀ s, GoodEnv (envs s))
    (hacq : ∀ s k, GoodAcq ((envs s).acqLP k))
    (hns : ∀ s n, ev = .random n → n - 1 ≤ (envs s).numSamplesRandom)
    (env : BOEnv) (hsug : env.suggest = stdSuggest sp ev envs deDup)
    (hobj : env.obj = some (signed a.maximize f)) (w : World) (b : BayesObj)
    (hcon : bayesConstruct a config cs o (sequentialEvaluate (signed a.maximize f) clock) = (w, .ok b))
    (ops : List Op) (ra : RunArgs) (fuel : Nat)
    (hops : ∀ op ∈ ops ++ [.run ra fuel], ValidContext sp (opContext op))
    (hc : AllComplete env (ops ++ [.run ra fuel]) b.state) :
    ∃ r, (afterAll env (ops ++ [.run ra fuel]) b.state).results = some r ∧ ObjDomain (kindsOf config) r.xOpt := by
  obtain ⟨-, -, r, i, v, hr, hi, -⟩ := C139_reported_is_best a f hf (Or.inl hX) config cs o clock w b hcon env hobj ops ra
    fuel hc
  exact ⟨r, hr, ((C97_called_inside_domain h hb hs hvar a f hf hX o ho clock ev deDup hev envs henvs hacq hns env hsug w
    (.ok b) hcon).2 b rfl _ hops).2 _ (List.mem_of_getElem? hi)⟩

/-- The hypotheses are met: two runs that maximize the sum of the coordinates. -/
example : (match (bayesConstruct { exArgs with maximize := true } exConfig none exOracle
        (sequentialEvaluate (signed true fun _ x => .ok x.sum) fun n => n)).2, designSpace exConfig none with
      | .ok b, .ok sp =>
        let env : BOEnv := { exFull sp with obj := some (signed true fun _ x => .ok x.sum) }
        let r1 := runOptimization env { maxIter := some (.fin 1) } 10 b.state
        let r2 := runOptimization env { maxIter := some (.fin 1) } 10 r1.1
        some ([r1.2, r2.2], r2.1.X.length, r2.1.results.map fun (q : Results) => q.fxOpt :: q.xOpt)
      | _, _ => none)
    = some ([.done .limit, .done .limit], 5, some [-20/3, 0, -1/3, 7, 0]) := by
  decide +kernel

end GPyOpt.Props
