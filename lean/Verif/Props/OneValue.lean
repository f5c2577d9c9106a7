import Verif.Lemmas.OneValue
import Verif.Props.Smaller
import Verif.Props.VarOrder

/-!
# C174: variables with one value can be left out

A configuration lists a variable that has one value only.  Encoding, rounding, designs, suggestions and runs are
those of the problem without it, filled up with the value.
-/

namespace GPyOpt.Props

open Spec

variable {p : List (Option ℚ)} {sp spF : Space}

/-- Encoding, decoding, rounding and constraints. -/
theorem C174_encodings (h : LeftOut p sp spF) (X : Mat) (hX : X ≠ []) :
    ((∀ r ∈ X, r.length = spF.objectiveDim) →
      sp.unzipInputs (X.map (fill p)) = (spF.unzipInputs X).map (List.map (fill (colPinned p sp.kinds))) ∧
      sp.indicatorConstraints (X.map (fill p)) = spF.indicatorConstraints X) ∧
    ((∀ r ∈ X, r.length = spF.modelDim) →
      sp.zipInputs (X.map (fill (colPinned p sp.kinds))) = (spF.zipInputs X).map (List.map (fill p)) ∧
      ∀ r ∈ X, sp.roundOptimum2d [fill (colPinned p sp.kinds) r]
        = (spF.roundOptimum2d [r]).map (List.map (fill (colPinned p sp.kinds)))) := by
  obtain ⟨c, cF, hc, hcF⟩ := h.managers
  have hco := h.corr hc hcF
  exact ⟨fun hl => ⟨h.sameUnzip X ⟨hX, hl⟩, h.indicator fun r hr => (hl r hr).trans (Arranged.expanded_length spF)⟩,
    fun hl => ⟨hco.zip X hX hl, fun r hr => hco.round r (hl r hr) trivial⟩⟩

/-- Random, Latin and Sobol designs. -/
theorem C174_designs_partial (h : LeftOut p sp spF) {oF o : DesignOracle} (ho : SameFreeDraws p sp.kinds oF o)
    (n : Nat) {name : String} (hn : name = "random" ∨ name = "latin" ∨ name = "sobol") :
    initialDesign name sp o n = (initialDesign name spF oF n).map (List.map (fill p)) :=
  (h.designs ho n hn).1

/-- For all random numbers of the larger problem there are corresponding ones of the smaller problem. -/
theorem C174_draws (h : LeftOut p sp spF) (o : DesignOracle) : ∃ oF, SameFreeDraws p sp.kinds oF o := by
  classical
  -- the position of a free variable in the list of all variables, and the same for continuous ones
  have hf : ∀ {i j : Nat}, p[i]? = some none → p[j]? = some none → freeBefore p i = freeBefore p j → i = j := by
    intro i j hi hj he
    have key := fun k (hk : p[k]? = some none) =>
      unpinned_get (l := List.range p.length) (by simp) hk
    have h1 := key i hi
    have h2 := key j hj
    rw [he, h2] at h1
    have li := (List.getElem?_eq_some_iff.1 hi).1
    have lj := (List.getElem?_eq_some_iff.1 hj).1
    rw [List.getElem?_eq_getElem (by simpa using lj), List.getElem?_eq_getElem (by simpa using li)] at h1
    simpa using h1.symm
  let P : Nat → Nat → Prop := fun cF c => ∃ (i : Nat) (lo hi : ℚ), p[i]? = some none ∧
    sp.kinds[i]? = some (.continuous lo hi) ∧ contBefore (unpinned p sp.kinds) (freeBefore p i) = cF ∧
    contBefore sp.kinds i = c
  have hP : ∀ {cF c d : Nat}, P cF c → P cF d → c = d := by
    rintro cF c d ⟨i, lo, hi, a1, a2, a3, rfl⟩ ⟨j, lo', hi', b1, b2, b3, rfl⟩
    have e1 := unpinned_get h.length_eq a1
    have e2 := unpinned_get h.length_eq b1
    rw [a2] at e1
    rw [b2] at e2
    have := contBefore_inj e1 e2 rfl rfl (a3.trans b3.symm)
    rw [hf a1 b1 this]
  let m : Nat → Nat := fun cF => if hc : ∃ c, P cF c then hc.choose else 0
  have hm : ∀ {i : Nat} {lo hi : ℚ}, p[i]? = some none → sp.kinds[i]? = some (.continuous lo hi) →
      m (contBefore (unpinned p sp.kinds) (freeBefore p i)) = contBefore sp.kinds i := by
    intro i lo hi h1 h2
    have hp : P (contBefore (unpinned p sp.kinds) (freeBefore p i)) (contBefore sp.kinds i) :=
      ⟨i, lo, hi, h1, h2, rfl, rfl⟩
    have he : ∃ c, P (contBefore (unpinned p sp.kinds) (freeBefore p i)) c := ⟨_, hp⟩
    simp only [m, dif_pos he]
    exact hP he.choose_spec hp
  let q : Nat → Nat := fun j => if hi : ∃ i, p[i]? = some none ∧ freeBefore p i = j then hi.choose else 0
  have hq : ∀ {i : Nat}, p[i]? = some none → q (freeBefore p i) = i := by
    intro i hi
    have he : ∃ k, p[k]? = some none ∧ freeBefore p k = freeBefore p i := ⟨i, hi, rfl⟩
    simp only [q, dif_pos he]
    exact hf he.choose_spec.1 hi he.choose_spec.2
  refine ⟨{ draws := fun t => { (o.draws t) with
              choice := fun i r => (o.draws t).choice (q i) r, unif := fun c r => (o.draws t).unif (m c) r }
            lhs := fun r c => o.lhs r (m c), sobol := fun r c => o.sobol r (m c), fuel := o.fuel },
    rfl, fun t r i hi => ?_, fun t r i lo hi h1 h2 => ?_, fun r i lo hi h1 h2 => ?_, fun r i lo hi h1 h2 => ?_⟩
  · simp only [hq hi]
  all_goals simp only [hm h1 h2]

/-- A suggestion is the suggestion of the smaller problem, filled up. The local optimizers leave the fixed
columns alone. Left out are random batches with duplicate logic, and pending or ignored points: there the code
asks with `np.any` whether there is anything. -/
theorem C174_suggestions_partial (h : LeftOut p sp spF) {env env' : EvalEnv}
    (he : CorrEnv spF.modelDim spF.modelDim (fill (colPinned p sp.kinds)) (fill (colPinned p sp.kinds))
      (SameFreeDraws p sp.kinds) env env')
    (ev : Evaluator) (deDup : Bool) (hz : deDup = false ∨ ∀ n, ev ≠ .random n) {X : Mat}
    (hX : ∀ r ∈ X, r.length = spF.objectiveDim) :
    computeNext ev env' sp none deDup (X.map (fill p)) none none
      = (computeNext ev env spF none deDup X none none).map (List.map (fill p)) := by
  obtain ⟨c, cF, hc, hcF⟩ := h.managers
  obtain ⟨config', cs', hspF⟩ := h.built'
  have hlen := (expand_self hspF h.noBandit' hcF).1
  refine Corr.computeNext hcF hc (h.corr hc hcF) (by rw [hlen]; exact he) ev deDup (fun _ => ?_)
    (hz.imp id .inl) ?_
  · intro z hz
    simp only [dupMgr, optAny, Bool.false_eq_true, if_false]
    constructor
    · intro hm
      obtain ⟨r, hr, he⟩ := List.mem_map.1 hm
      have hw : spF.expanded.length = (p.filter Option.isNone).length := h.rel.free_length
      rw [← fill_inj ((hX r hr).trans hw) (hz.trans hw) he]
      exact hr
    · exact fun hm => List.mem_map_of_mem hm
  · have ht : ∀ t, anchorDesign env.op.anchorLogic = some t → t = "random" ∨ t = "latin" ∨ t = "sobol" := by
      intro t ht
      unfold anchorDesign at ht
      split_ifs at ht
      · cases ht; exact .inl rfl
      · cases ht; exact .inr (.inr rfl)
    intro q hq
    unfold designsDrawn at hq
    cases ev <;> simp at hq <;> aesop

/-- Runs: the same evaluations, costs, fits, results and exceptions. -/
theorem C174_runs_partial (h : LeftOut p sp spF) {pc : Vec → Vec} {env env' : BOEnv}
    (hp : CorrParts (fill (colPinned p sp.kinds)) (fill p) id pc env env') (ev : Evaluator) (deDup : Bool)
    (hz : deDup = false ∨ ∀ n, ev ≠ .random n) (envs envs' : BOState → EvalEnv)
    (hc : ∀ s, CorrEnv spF.modelDim spF.modelDim (fill (colPinned p sp.kinds)) (fill (colPinned p sp.kinds))
      (SameFreeDraws p sp.kinds) (envs s) (envs' (mapState (fill (colPinned p sp.kinds)) (fill p) id pc s)))
    {a : RunArgs} (ha : a.context = none) (fuel : Nat) {s : BOState} (hX : s.X ≠ [])
    (hl : ∀ r ∈ s.X, r.length = spF.objectiveDim) :
    runOptimization { env' with sp := sp, suggest := stdSuggest sp ev envs' deDup } a fuel
        (mapState (fill (colPinned p sp.kinds)) (fill p) id pc s)
      = (mapState (fill (colPinned p sp.kinds)) (fill p) id pc
            (runOptimization { env with sp := spF, suggest := stdSuggest spF ev envs deDup } a fuel s).1,
          (runOptimization { env with sp := spF, suggest := stdSuggest spF ev envs deDup } a fuel s).2) := by
  refine runOptimization_corr (env := { env with sp := spF, suggest := stdSuggest spF ev envs deDup })
    (env' := { env' with sp := sp, suggest := stdSuggest sp ev envs' deDup }) (n := spF.expanded.length)
    (κ := id) (a := a) (a' := a) h.sameUnzip
    ⟨hp.obj, hp.clock, hp.fit, hp.params, hp.costFit, hp.lg, hp.normalizeY, hp.normalize, hp.interval⟩
    rfl (h.sameStopped a.eps) rfl ?_ ?_ fuel ⟨hX, hl⟩
  · intro s hs hrows
    simp only [stdSuggest]
    have := C174_suggestions_partial h (hc s) ev deDup hz (X := s.X) hrows.2
    rw [hs, ha]
    show computeNext ev (envs' _) sp (id s.context) deDup (s.X.map (fill p)) none none = _
    rw [hs, ha]
    exact this
  · intro s m hs hm r hr
    exact computeNext_length h.noBandit' hm r hr

/-! ### Concrete cases, and where such a variable does matter -/

/-- A variable with three values and one with the value 4 only. -/
def oneSp : Space :=
  ⟨[smallDesc "x" [0, 1, 2], smallDesc "c" [4]], [⟨"x", .discrete [0, 1, 2], 1⟩, ⟨"c", .discrete [4], 1⟩],
    [smallDesc "x" [0, 1, 2], smallDesc "c" [4]],
    [⟨"x", .discrete [0, 1, 2], 0, [0]⟩, ⟨"c", .discrete [4], 1, [1]⟩], none⟩

theorem oneSp_leftOut : LeftOut [none, some 4] oneSp smallFree := by
  refine ⟨⟨oneSp.config, none, rfl⟩, ⟨smallFree.config, none, rfl⟩, rfl, rfl, ?_, ?_, rfl, by decide, .none⟩
  · intro k hk
    rcases List.mem_cons.1 hk with rfl | hk
    · simp [NonEmptyDom]
    · rcases List.mem_singleton.1 hk with rfl
      simp [NonEmptyDom]
  · refine .cons (by simp) (.cons ?_ .nil)
    rintro v hv
    cases hv
    exact ⟨by simp, by simp⟩

/-- A continuous variable of one value first, a category last, and a constraint on the variable between them. -/
def wideSp : Space :=
  ⟨[contDesc "a" 3 3, contDesc "x" 0 1, { name := some "c", type := some "categorical", domain := some (.flat [0]) }],
    [⟨"a", .continuous 3 3, 1⟩, ⟨"x", .continuous 0 1, 1⟩, ⟨"c", .categorical [0], 1⟩],
    [contDesc "a" 3 3, contDesc "x" 0 1, { name := some "c", type := some "categorical", domain := some (.flat [0]) }],
    [⟨"a", .continuous 3 3, 0, [0]⟩, ⟨"x", .continuous 0 1, 1, [1]⟩, ⟨"c", .categorical [0], 2, [2]⟩],
    some [{ constraint := some fun r => .ok (r.getD 1 0 - 1 / 2) }]⟩

/-- The variable between them alone. -/
def narrowSp : Space :=
  ⟨[contDesc "x" 0 1], [⟨"x", .continuous 0 1, 1⟩], [contDesc "x" 0 1], [⟨"x", .continuous 0 1, 0, [0]⟩],
    some [{ constraint := some fun r => .ok (r.getD 0 0 - 1 / 2) }]⟩

theorem wideSp_leftOut : LeftOut [some 3, none, some 0] wideSp narrowSp := by
  refine ⟨⟨wideSp.config, wideSp.constraints, rfl⟩, ⟨narrowSp.config, narrowSp.constraints, rfl⟩, rfl, rfl, ?_, ?_,
    rfl, by decide, .some (.cons ?_ .nil)⟩
  · intro k hk
    simp only [wideSp, Space.kinds, List.map_cons, List.map_nil, List.mem_cons, List.not_mem_nil, or_false] at hk
    rcases hk with rfl | rfl | rfl <;> simp [NonEmptyDom]
  · refine .cons ?_ (.cons (by simp) (.cons ?_ .nil))
    · rintro v hv
      cases hv
      exact ⟨rfl, rfl⟩
    · rintro v hv
      cases hv
      exact ⟨by simp, by simp⟩
  · intro x hx
    obtain ⟨a, rfl⟩ := List.length_eq_one_iff.1 hx
    rfl

/-- Draws for `narrowSp` and for `wideSp`: the Sobol column of `x` is the first for one and the second for the
other. -/
example : SameFreeDraws [some 3, none, some 0] wideSp.kinds (orderDraws [1])
    { orderDraws [0, 1, 2] with sobol := fun _ k => if k = 1 then 1 / 4 else 0 } := by
  have : ∀ i : Nat, ([some 3, none, some 0] : List (Option ℚ))[i]? = some none → i = 1 := by
    intro i hi
    rcases i with _ | _ | _ | i <;> simp at hi ⊢
  refine ⟨rfl, fun t r i hi => ?_, fun t r i lo hi h1 h2 => rfl, fun r i lo hi h1 h2 => rfl, fun r i lo hi h1 h2 => ?_⟩
  · rw [this i hi]; rfl
  · rw [this i h1]; rfl

/-- Draws of the larger problem `oneSp` and of the smaller problem. -/
theorem oneSp_draws : SameFreeDraws [none, some 4] oneSp.kinds smallOracle.design smallOracle.design := by
  have h0 : ∀ i : Nat, ([none, some 4] : List (Option ℚ))[i]? = some none → i = 0 := by
    intro i hi
    rcases i with _ | _ | i <;> simp at hi ⊢
  refine ⟨rfl, fun t r i hi => ?_, fun t r i lo hi h1 h2 => rfl, fun r i lo hi h1 h2 => rfl, fun r i lo hi h1 h2 => rfl⟩
  rw [h0 i hi]
  rfl

theorem oneSp_env : CorrEnv smallFree.modelDim smallFree.modelDim (fill (colPinned [none, some 4] oneSp.kinds))
    (fill (colPinned [none, some 4] oneSp.kinds)) (SameFreeDraws [none, some 4] oneSp.kinds)
    (restrictEnv (fill (colPinned [none, some 4] oneSp.kinds)) smallEnv) smallEnv := by
  have hw : ∀ k, SameWork smallFree.modelDim (fill (colPinned [none, some 4] oneSp.kinds)) (smallOracle.opt k)
      (smallOracle.opt k) := fun k g g' x hx hg => ⟨rfl, fun y hy => by cases hy; exact hx⟩
  exact ⟨rfl, fun _ _ => rfl, ⟨oneSp_draws, rfl, fun _ _ => rfl, hw⟩, ⟨oneSp_draws, rfl, fun _ _ => rfl, hw⟩, rfl, rfl,
    fun _ _ _ _ => rfl, fun k => ⟨oneSp_draws, rfl, fun _ _ => rfl, hw⟩, rfl, rfl⟩

example : computeNext .sequential smallEnv oneSp none true [[0, 4]] none none = .ok [[1, 4]] ∧
    computeNext .sequential (restrictEnv (fill (colPinned [none, some 4] oneSp.kinds)) smallEnv) smallFree none true
      [[0]] none none = .ok [[1]] := by
  refine ⟨by decide +kernel, by decide +kernel⟩

/-- A grid has fewer points in every direction if there is one more variable. -/
theorem C174_grid_counterexample : ∃ (p : List (Option ℚ)) (sp spF : Space) (oF o : DesignOracle) (n : Nat) (m m' : Mat),
    LeftOut p sp spF ∧ SameFreeDraws p sp.kinds oF o ∧ initialDesign "grid" spF oF n = .ok m ∧
      initialDesign "grid" sp o n = .ok m' ∧ m' ≠ m.map (fill p) := by
  have h0 : ∀ i : Nat, ([none, some 3] : List (Option ℚ))[i]? = some none → i = 0 := by
    intro i hi
    rcases i with _ | _ | i <;> simp at hi ⊢
  refine ⟨[none, some 3], pairSp (.continuous 0 1) (.continuous 3 3) (contDesc "x" 0 1) (contDesc "a" 3 3),
    { narrowSp with constraints := none }, orderDraws [0], orderDraws [0, 1], 4, [[0], [1 / 3], [2 / 3], [1]],
    [[0, 3], [0, 3], [1, 3], [1, 3]],
    ⟨⟨[contDesc "x" 0 1, contDesc "a" 3 3], none, rfl⟩, ⟨narrowSp.config, none, rfl⟩, rfl, rfl, ?_,
      .cons (by simp) (.cons ?_ .nil), rfl, by decide, .none⟩,
    ⟨rfl, fun t r i hi => ?_, fun t r i lo hi h1 h2 => rfl, fun r i lo hi h1 h2 => rfl, fun r i lo hi h1 h2 => ?_⟩,
    by decide +kernel, by decide +kernel, by decide +kernel⟩
  · intro k hk
    simp only [pairSp, Space.kinds, List.map_cons, List.map_nil, List.mem_cons, List.not_mem_nil, or_false] at hk
    rcases hk with rfl | rfl <;> simp [NonEmptyDom]
  · rintro v hv
    cases hv
    exact ⟨rfl, rfl⟩
  · rw [h0 i hi]; rfl
  · rw [h0 i h1]; rfl

/-- A random batch with duplicate logic loses an optimum at the origin of the smaller problem (`np.any`); with
the variable it is kept. -/
theorem C174_random_batch_counterexample : ∃ (p : List (Option ℚ)) (sp spF : Space) (env env' : EvalEnv) (n : Nat)
    (m m' : Mat), LeftOut p sp spF ∧
      CorrEnv spF.modelDim spF.modelDim (fill (colPinned p sp.kinds)) (fill (colPinned p sp.kinds))
        (SameFreeDraws p sp.kinds) env env' ∧
      computeNext (.random n) env spF none true [] none none = .ok m ∧
      computeNext (.random n) env' sp none true [] none none = .ok m' ∧ m' ≠ m.map (fill p) := by
  refine ⟨_, oneSp, smallFree, _, smallEnv, 2, [[2], [1]], [[0, 4], [2, 4]], oneSp_leftOut, oneSp_env, ?_, ?_, ?_⟩
  all_goals decide +kernel

end GPyOpt.Props
