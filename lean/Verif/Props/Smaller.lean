import Verif.Lemmas.Smaller
import Verif.Props.Context
import Verif.Props.Descriptions

/-!
# C155: a context leaves a smaller problem

The specification is `Verif/Spec/Smaller.lean`: the variables that the context does not name are a
problem of their own, and a row of it is filled up with the values of the context.  The theorems say
that optimizing in a context is optimizing the smaller problem.
-/

namespace GPyOpt.Props

open GPyOpt Spec

variable {sp spF : Space} {context : Context}

/-- The smaller problem exists: it is built from the descriptions of the free variables. -/
theorem C155_exists {config : List Desc} {cs : Option (List ConstrDict)} (h : designSpace config cs = .ok sp)
    (hb : sp.hasBandit = false) (hn : (sp.expanded.map EVar.name).Nodup) (hd : ∀ k ∈ sp.kinds, NonEmptyDom k)
    (hv : ValidContext sp (some context)) (hf : unpinned (pinned sp context) sp.kinds ≠ []) :
    ∃ spF, Smaller sp context spF := by
  obtain ⟨c, -, hc, -⟩ := C23_context_partition h hb (fun k hk => hd k (by rw [space_kinds_eq h]; exact hk))
    (some context) (validContext_good hv)
  obtain ⟨ds, spA, -, a2, a3, a4⟩ := anchorSpace_ok h hb hc
  -- the free positions do not depend on the smaller space
  have hk : spA.kinds = unpinned (pinned sp context) sp.kinds := by
    rw [a4]
    exact keep_unpinned 0 (by simp [pinned, Space.kinds]) (free_iff_of h hb hn hc)
  refine ⟨spA, ⟨_, _, h⟩, ⟨_, _, a2⟩, hb, a3, hn, hd, hv, hk, by rwa [hk], ?_⟩
  obtain ⟨_, -, -, -, -, -, e1⟩ := designSpace_ok h
  obtain ⟨_, -, -, -, -, -, e2⟩ := designSpace_ok a2
  rw [e2, e1]
  cases cs with
  | none => rfl
  | some cs =>
    simp only [Option.map_some, List.map_map, Option.some.injEq]
    exact List.map_congr_left fun c _ => fixConstr_idem c

/-- Encoding, decoding and rounding. -/
theorem C155_encodings (h : Smaller sp context spF) (X : Mat) (hX : X ≠ []) :
    ((∀ r ∈ X, r.length = spF.expanded.length) → sp.unzipInputs (X.map (fill (pinned sp context)))
      = (spF.unzipInputs X).map (List.map (fill (colPinned (pinned sp context) sp.kinds)))) ∧
    ((∀ r ∈ X, r.length = spF.modelDim) →
      sp.zipInputs (X.map (fill (colPinned (pinned sp context) sp.kinds)))
        = (spF.zipInputs X).map (List.map (fill (pinned sp context))) ∧
      ∀ r ∈ X, sp.roundOptimum2d [fill (colPinned (pinned sp context) sp.kinds) r]
        = (spF.roundOptimum2d [r]).map (List.map (fill (colPinned (pinned sp context) sp.kinds)))) := by
  obtain ⟨c, cF, hc, hcF⟩ := h.managers
  have hco := h.corr hc hcF
  exact ⟨fun hl => h.sameUnzip X ⟨hX, hl⟩, fun hl => ⟨hco.zip X hX hl, fun r hr => hco.round r (hl r hr) trivial⟩⟩

/-- With the same random numbers the anchor points are sampled as in the smaller problem. -/
theorem C155_samples (h : Smaller sp context spF) {c cF : Ctx}
    (hc : contextManager sp (some context) = .ok c) (hcF : contextManager spF none = .ok cF)
    (unique : Bool) (t : String) (n : Nat) (o : DesignOracle) :
    anchorSamples sp (some c) unique t n o
      = (anchorSamples spF (some cF) unique t n o).map
          (List.map (fill (colPinned (pinned sp context) sp.kinds))) :=
  h.samples hc hcF unique t n o

/-- A suggestion in a context is the suggestion of the smaller problem, filled up. Of the evaluations so
far those in the context count, the others do not. Two cases are left out, where the code asks with
`np.any` whether there is anything: random batches with duplicate logic
(`C155_random_batch_counterexample`), and pending or ignored points. -/
theorem C155_suggestions_partial (h : Smaller sp context spF) {env env' : EvalEnv}
    (he : CorrEnv spF.modelDim spF.modelDim (fill (colPinned (pinned sp context) sp.kinds)) id Eq env env')
    (ev : Evaluator) (deDup : Bool) (hz : deDup = false ∨ ∀ n, ev ≠ .random n) (X : Mat) :
    computeNext ev env' sp (some context) deDup X none none
      = (computeNext ev env spF none deDup (inContext (pinned sp context) X) none none).map
          (List.map (fill (pinned sp context))) := by
  obtain ⟨c, cF, hc, hcF⟩ := h.managers
  obtain ⟨config', cs', hspF⟩ := h.built'
  have hlen := (expand_self hspF h.noBandit' hcF).1
  refine Corr.computeNext hcF hc (h.corr hc hcF) (by rw [hlen]; exact he) ev deDup (fun _ => ?_)
    (hz.imp id .inl) fun _ _ => trivial
  intro z hz
  have huf := h.rel.unpin_fill z hz
  simp only [dupMgr, optAny, Bool.false_eq_true, if_false, inContext, List.mem_map, List.mem_filter,
    decide_eq_true_eq]
  constructor
  · intro hm
    exact ⟨_, ⟨hm, by rw [huf]⟩, huf⟩
  · rintro ⟨r, ⟨hr, hr2⟩, rfl⟩
    rw [← hr2]
    exact hr

/-- The same for the acquisition of the full problem, restricted to the context. -/
theorem C155_restricted_partial (h : Smaller sp context spF) {env : EvalEnv} (he : EnvOver spF.modelDim env)
    (ev : Evaluator) (deDup : Bool) (hz : deDup = false ∨ ∀ n, ev ≠ .random n) (X : Mat) :
    computeNext ev env sp (some context) deDup X none none
      = (computeNext ev (restrictEnv (fill (colPinned (pinned sp context) sp.kinds)) env) spF none deDup
          (inContext (pinned sp context) X) none none).map (List.map (fill (pinned sp context))) := by
  refine C155_suggestions_partial h (env := restrictEnv (fill (colPinned (pinned sp context) sp.kinds)) env)
    (env' := env) ⟨rfl, fun _ _ => rfl, ⟨rfl, rfl, fun _ _ => rfl, he.acq⟩,
    ⟨rfl, rfl, fun _ _ => rfl, he.batch⟩, rfl, rfl, fun _ _ _ _ => rfl, fun j => ⟨rfl, rfl, fun _ _ => rfl, he.lp j⟩,
    rfl, ?_⟩ ev deDup hz X
  simp only [restrictEnv, mapLP, he.penalizers]
  rw [show (none : Option Mat).map (List.map (fill (colPinned (pinned sp context) sp.kinds))) = none from rfl,
    ← he.penalizers]

/-- A run in a context whose data lie in the context is the run of the smaller problem, filled up: the
same evaluations, costs, fits, results and exceptions. -/
theorem C155_runs_partial (h : Smaller sp context spF) {pc : Vec → Vec} {env env' : BOEnv}
    (hp : CorrParts (fill (colPinned (pinned sp context) sp.kinds)) (fill (pinned sp context))
      (fun _ => some context) pc env env')
    (ev : Evaluator) (deDup : Bool) (hz : deDup = false ∨ ∀ n, ev ≠ .random n) (envs envs' : BOState → EvalEnv)
    (hc : ∀ s, CorrEnv spF.modelDim spF.modelDim (fill (colPinned (pinned sp context) sp.kinds)) id Eq (envs s)
      (envs' (mapState (fill (colPinned (pinned sp context) sp.kinds)) (fill (pinned sp context))
        (fun _ => some context) pc s)))
    {a : RunArgs} (ha : a.context = none) (fuel : Nat) {s : BOState} (hX : s.X ≠ [])
    (hl : ∀ r ∈ s.X, r.length = spF.expanded.length) :
    runOptimization { env' with sp := sp, suggest := stdSuggest sp ev envs' deDup }
        { a with context := some context } fuel
        (mapState (fill (colPinned (pinned sp context) sp.kinds)) (fill (pinned sp context))
          (fun _ => some context) pc s)
      = (mapState (fill (colPinned (pinned sp context) sp.kinds)) (fill (pinned sp context))
            (fun _ => some context) pc
            (runOptimization { env with sp := spF, suggest := stdSuggest spF ev envs deDup } a fuel s).1,
          (runOptimization { env with sp := spF, suggest := stdSuggest spF ev envs deDup } a fuel s).2) := by
  refine runOptimization_corr (env := { env with sp := spF, suggest := stdSuggest spF ev envs deDup })
    (env' := { env' with sp := sp, suggest := stdSuggest sp ev envs' deDup })
    (κ := fun _ => some context) (a := a) (a' := { a with context := some context }) h.sameUnzip
    ⟨hp.obj, hp.clock, hp.fit, hp.params, hp.costFit, hp.lg, hp.normalizeY, hp.normalize, hp.interval⟩
    rfl (h.sameStopped a.eps) rfl ?_ ?_ fuel ⟨hX, hl⟩
  · intro s hs hrows
    simp only [stdSuggest]
    have := C155_suggestions_partial h (hc s) ev deDup hz (s.X.map (fill (pinned sp context)))
    rw [h.inContext_fill hrows.2] at this
    rw [hs, ha]
    exact this
  · intro s m hs hm r hr
    exact computeNext_length h.noBandit' hm r hr

/-! ## Examples, and what does depend on the context -/

/-- A description of a discrete variable, for the examples. -/
def smallDesc (name : String) (vals : List ℚ) : Desc :=
  { name := some name, type := some "discrete", domain := some (.flat vals) }

/-- A space of two discrete variables, and one of the first of them. -/
def smallFull : Space :=
  ⟨[smallDesc "x" [0, 1, 2], smallDesc "c" [3, 4]], [⟨"x", .discrete [0, 1, 2], 1⟩, ⟨"c", .discrete [3, 4], 1⟩],
    [smallDesc "x" [0, 1, 2], smallDesc "c" [3, 4]],
    [⟨"x", .discrete [0, 1, 2], 0, [0]⟩, ⟨"c", .discrete [3, 4], 1, [1]⟩], none⟩

def smallFree : Space :=
  ⟨[smallDesc "x" [0, 1, 2]], [⟨"x", .discrete [0, 1, 2], 1⟩], [smallDesc "x" [0, 1, 2]],
    [⟨"x", .discrete [0, 1, 2], 0, [0]⟩], none⟩

theorem small_smaller : Smaller smallFull [("c", 4)] smallFree := by
  refine ⟨⟨[smallDesc "x" [0, 1, 2], smallDesc "c" [3, 4]], none, rfl⟩, ⟨[smallDesc "x" [0, 1, 2]], none, rfl⟩,
    rfl, rfl, by decide, ?_, ⟨by decide, ?_⟩, rfl, by decide, rfl⟩
  · intro k hk
    rcases List.mem_cons.1 hk with rfl | hk
    · simp [NonEmptyDom]
    · rcases List.mem_singleton.1 hk with rfl
      simp [NonEmptyDom]
  · intro nv hnv
    rcases List.mem_singleton.1 hnv with rfl
    exact ⟨⟨"c", .discrete [3, 4], 1, [1]⟩, rfl, by simp [ValidObj]⟩

/-- A local optimizer that stays where it starts; draws that alternate. -/
def smallOracle : AcqOracle :=
  { design := { draws := fun _ => ⟨fun _ _ => 0, fun i j => i + j, fun _ _ => 0⟩, lhs := fun _ _ => 0,
                sobol := fun _ _ => 0, fuel := 1 }
    argsort := fun l => List.range l.length, thompson := fun X => .ok (X.map fun _ => 0)
    opt := fun _ _ x => .ok x }

/-- An acquisition that depends on the context: it is the sum of the columns. -/
def smallEnv : EvalEnv :=
  { op := { numSamplesObjective := 3 }, f := fun x => .ok x.sum
    oracle := ⟨smallOracle, { smallOracle with argsort := fun l => (List.range l.length).reverse }⟩
    numSamplesRandom := 3, numSamplesThompson := 3
    fLP := fun _ x => .ok x.sum, acqLP := fun _ => smallOracle, lpConsts := .ok (1, 0)
    lpState := ⟨none, none⟩ }

theorem small_over (n : Nat) : EnvOver n smallEnv :=
  ⟨fun _ _ _ _ hx _ => ⟨rfl, fun _ hy => by cases hy; exact hx⟩,
    fun _ _ _ _ hx _ => ⟨rfl, fun _ hy => by cases hy; exact hx⟩,
    fun _ _ _ _ _ hx _ => ⟨rfl, fun _ hy => by cases hy; exact hx⟩, rfl⟩

/-- Categories and several free columns: what is fixed, and how rows are filled up. -/
example : ∃ sp, designSpace
    [{ name := some "x", domain := some (.flat [0, 1]), dimensionality := some 2 },
     { name := some "c", type := some "categorical", domain := some (.flat [0, 1, 2]) }, smallDesc "d" [5, 6]] none
      = .ok sp ∧
    pinned sp [("c", 1), ("x_1", 1 / 2)] = [some (1 / 2), none, some 1, none] ∧
    colPinned (pinned sp [("c", 1), ("x_1", 1 / 2)]) sp.kinds = [some (1 / 2), none, some 0, some 1, some 0, none] ∧
    fill [some (1 / 2), none, some 1, none] [7, 8] = [1 / 2, 7, 1, 8] := by
  refine ⟨_, rfl, by decide +kernel, by decide +kernel, by decide +kernel⟩

/-- With the evaluations `(0, 4)` and `(1, 3)` the next evaluation in the context `c = 4` is `(1, 4)`: only
the first of them is in the context. -/
example : inContext (pinned smallFull [("c", 4)]) [[0, 4], [1, 3]] = [[0]] ∧
    computeNext .sequential smallEnv smallFull (some [("c", 4)]) true [[0, 4], [1, 3]] none none = .ok [[1, 4]] ∧
    computeNext .sequential (restrictEnv (fill [none, some 4]) smallEnv) smallFree none true [[0]] none none
      = .ok [[1]] := by
  refine ⟨by decide +kernel, by decide +kernel, by decide +kernel⟩

/-- Parts of a run that correspond: the objective of the smaller problem is the objective in the context. -/
example : CorrParts (fill [none, some 4]) (fill [none, some 4]) (fun _ => some [("c", 4)]) id
    { sp := smallFree, obj := some fun _ x => .ok (fill [none, some 4] x).sum
      clock := fun n => n, fit := fun s _ _ => if s.X.length = 3 then .error .linAlg else .ok ()
      params := fun s => .ok [s.X.length], costFit := fun _ => .ok ()
      lg := id, suggest := fun _ _ _ => .ok [], normalizeY := false, normalize := id, interval := 1 }
    { sp := smallFull, obj := some fun _ x => .ok x.sum
      clock := fun n => n, fit := fun s _ _ => if s.X.length = 3 then .error .linAlg else .ok ()
      params := fun s => .ok [s.X.length], costFit := fun _ => .ok ()
      lg := id, suggest := fun _ _ _ => .ok [], normalizeY := false, normalize := id, interval := 1 } := by
  refine ⟨fun _ x => rfl, rfl, fun s X Y => ?_, fun s => ?_, fun _ => rfl, rfl, rfl, rfl, rfl⟩
  · simp [mapState]
  · simp [mapState, Except.map]

/-- A random batch with duplicate logic loses an optimum at the origin of the smaller problem (`np.any`);
in the context it is kept. -/
theorem C155_random_batch_counterexample : ∃ (sp spF : Space) (context : Context) (env : EvalEnv) (n : Nat)
    (m m' : Mat), Smaller sp context spF ∧ EnvOver spF.modelDim env ∧
      computeNext (.random n) (restrictEnv (fill (colPinned (pinned sp context) sp.kinds)) env) spF none true
        [] none none = .ok m ∧
      computeNext (.random n) env sp (some context) true [] none none = .ok m' ∧
      m' ≠ m.map (fill (pinned sp context)) := by
  refine ⟨smallFull, smallFree, [("c", 4)], smallEnv, 2, ?m, ?m', small_smaller, small_over _, ?_, ?_, ?_⟩
  case m => exact [[2], [1]]
  case m' => exact [[0, 4], [2, 4]]
  all_goals decide +kernel

/-- A pending point at the origin of the smaller problem is not seen as pending (`np.any`) and is
suggested again; in the context it is not. -/
theorem C155_pending_counterexample : ∃ (sp spF : Space) (context : Context) (env : EvalEnv)
    (pending m : Mat), Smaller sp context spF ∧ EnvOver spF.modelDim env ∧
      computeNext .sequential (restrictEnv (fill (colPinned (pinned sp context) sp.kinds)) env) spF none true
        [] (some pending) none = .ok pending ∧
      computeNext .sequential env sp (some context) true [] (some (pending.map (fill (pinned sp context)))) none
        = .ok m ∧ m ≠ pending.map (fill (pinned sp context)) := by
  refine ⟨smallFull, smallFree, [("c", 4)], smallEnv, [[0]], ?m, small_smaller, small_over _, ?_, ?_, ?_⟩
  case m => exact [[1, 4]]
  all_goals decide +kernel

end GPyOpt.Props
