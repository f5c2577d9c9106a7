import Verif.Lemmas.VarOrderContext
import Verif.Props.Smaller
import Verif.Props.VarOrder

/-!
# C157: the order of the variables, in a context

The same context in the two problems fixes the same variables, because it names them.
-/

namespace GPyOpt.Props

open Spec

variable {σ : List Nat} {context : Context} {sp sp' spF spF' : Space}

/-- Every order of the descriptions gives problems of this kind, for every context that is valid and leaves
something free. -/
theorem C157_context_exists {config config' : List Desc} (h : designSpace config none = .ok sp)
    (h' : designSpace config' none = .ok sp') (ha : Arranged σ sp sp')
    (hn : sp'.expanded.map EVar.name = arrange σ (sp.expanded.map EVar.name))
    (hd : (sp.expanded.map EVar.name).Nodup) (hv : ValidContext sp (some context))
    (hv' : ValidContext sp' (some context)) (hf : unpinned (pinned sp context) sp.kinds ≠ []) :
    ∃ spF spF', ArrangedIn σ context sp sp' spF spF' := by
  have hl : (sp.expanded.map EVar.name).length = sp.kinds.length := by simp [Space.kinds]
  have hp : pinned sp' context = arrange σ (pinned sp context) := by
    have e : ∀ s : Space, pinned s context = (s.expanded.map EVar.name).map fun n => context.lookup n := by
      intro s; simp [pinned, List.map_map, Function.comp_def]
    rw [e sp', hn, e sp]
    exact (arrange_map _ _).symm
  have hpl := ArrangedIn.pinned_length sp context
  have ho : σ.Perm (List.range (pinned sp context).length) := ha.order' hpl
  obtain ⟨spF, hs⟩ := C155_exists h ha.noBandit hd ha.domains hv hf
  have hf' : unpinned (pinned sp' context) sp'.kinds ≠ [] := by
    rw [hp, ha.kinds, unpinned_arrange hpl ho]
    intro e
    have := arrange_length (l := unpinned (pinned sp context) sp.kinds) (σ := freeOrder σ (pinned sp context))
      (by rw [unpinned_length hpl]; exact freeOrder_perm ho)
    rw [e] at this
    exact hf (List.length_eq_zero_iff.1 this.symm)
  obtain ⟨spF', hs'⟩ := C155_exists h' ha.noBandit'
    (by rw [hn]; exact (arrange_perm (ha.order' hl)).nodup_iff.2 hd) ha.domains' hv' hf'
  refine ⟨spF, spF', ha, hn, hs, hs', ?_⟩
  obtain ⟨_, -, -, -, -, -, e1⟩ := designSpace_ok h
  obtain ⟨_, -, -, -, -, -, e2⟩ := designSpace_ok h'
  rw [e1, e2]
  exact .none

/-- Suggestions in a context do not depend on the order of the variables. Only the free variables draw
random numbers and are moved by the local optimizers. -/
theorem C157_context_suggestions_partial (h : ArrangedIn σ context sp sp' spF spF') {env env' : EvalEnv}
    (he : CorrEnv sp.modelDim spF.modelDim (arrangeCols σ sp.kinds)
      (arrangeCols (freeOrder σ (pinned sp context)) spF.kinds)
      (SameDraws (freeOrder σ (pinned sp context)) spF.kinds) env env')
    (ho : EnvOver spF.modelDim env) (ho' : EnvOver spF.modelDim env')
    (hl : env.op.anchorLogic ≠ "thompson_sampling") (ev : Evaluator) (deDup : Bool)
    (hd : deDup = false ∨ (∀ n, ev ≠ .random n) ∧ ∀ n, ev ≠ .thompson n) {X : Mat}
    (hX : ∀ r ∈ X, r.length = sp.objectiveDim) :
    computeNext ev env' sp' (some context) deDup (X.map (arrange σ)) none none
      = (computeNext ev env sp (some context) deDup X none none).map (List.map (arrange σ)) := by
  have hdim : spF'.modelDim = spF.modelDim := h.arranged.modelDim
  have hz : deDup = false ∨ ∀ n, ev ≠ .random n := hd.imp id And.left
  have hn : sp.objectiveDim = sp.kinds.length := Arranged.expanded_length sp
  rw [hn] at hX
  have hlen : ∀ {x : Vec}, x.length = spF.modelDim →
      (fill (colPinned (pinned sp context) sp.kinds) x).length = sp.modelDim := by
    intro x hx
    rw [Smaller.modelDim_cols] at hx ⊢
    exact h.small.rel.fill_cols_length hx
  have hO : ∀ {o o' : AcqOracle}, CorrOracle sp.modelDim spF.modelDim (arrangeCols σ sp.kinds)
      (arrangeCols (freeOrder σ (pinned sp context)) spF.kinds)
      (SameDraws (freeOrder σ (pinned sp context)) spF.kinds) o o' →
      CorrOracle spF.modelDim spF.modelDim (arrangeCols (freeOrder σ (pinned sp context)) spF.kinds)
        (arrangeCols (freeOrder σ (pinned sp context)) spF.kinds)
        (SameDraws (freeOrder σ (pinned sp context)) spF.kinds)
        (restrictOracle (fill (colPinned (pinned sp context) sp.kinds)) o)
        (restrictOracle (fill (colPinned (pinned sp' context) sp'.kinds)) o') := by
    intro o o' hoo
    refine ⟨hoo.design, hoo.argsort, fun X hX => ?_, hoo.opt⟩
    show o'.thompson ((X.map _).map _) = o.thompson (X.map _)
    rw [← hoo.thompson (X.map (fill (colPinned (pinned sp context) sp.kinds))) (by
      intro r hr
      obtain ⟨x, hx, rfl⟩ := List.mem_map.1 hr
      exact hlen (hX x hx))]
    congr 1
    simp only [List.map_map]
    exact List.map_congr_left fun x hx => h.fill_cols (hX x hx)
  rw [C155_restricted_partial h.small ho ev deDup hz X,
    C155_restricted_partial h.small' (by rw [hdim]; exact ho') ev deDup hz (X.map (arrange σ)),
    h.inContext_arrange hX]
  have hin : ∀ r ∈ inContext (pinned sp context) X, r.length = spF.objectiveDim := by
    intro r hr
    obtain ⟨q, hq, rfl⟩ := List.mem_map.1 hr
    have hq := hX q (List.mem_of_mem_filter hq)
    rw [unpinned_length (by rw [ArrangedIn.pinned_length, hq]), ← h.free_length]
    exact (Arranged.expanded_length spF).symm
  have hc : CorrEnv spF.modelDim spF.modelDim (arrangeCols (freeOrder σ (pinned sp context)) spF.kinds)
      (arrangeCols (freeOrder σ (pinned sp context)) spF.kinds)
      (SameDraws (freeOrder σ (pinned sp context)) spF.kinds)
      (restrictEnv (fill (colPinned (pinned sp context) sp.kinds)) env)
      (restrictEnv (fill (colPinned (pinned sp' context) sp'.kinds)) env') := by
    refine ⟨he.op, fun x hx => ?_, hO he.acq, hO he.batch, he.samplesRandom, he.samplesThompson,
      fun s x hs hx => ?_, fun k => hO (he.acqLP k), he.lpConsts, ?_⟩
    · show env'.f (fill _ (arrangeCols _ _ x)) = env.f (fill _ x)
      rw [h.fill_cols hx]
      exact he.f _ (hlen hx)
    · show env'.fLP (mapLP _ (mapLP _ s)) (fill _ (arrangeCols _ _ x)) = env.fLP (mapLP _ s) (fill _ x)
      rw [h.fill_cols hx, ← he.fLP _ _ ?_ (hlen hx)]
      · congr 1
        obtain ⟨a, b⟩ := s
        cases a with
        | none => rfl
        | some m =>
          simp only [mapLP, Option.map_some, List.map_map, LPState.mk.injEq, Option.some.injEq, and_true]
          exact List.map_congr_left fun r hr => h.fill_cols (hs m rfl r hr)
      · obtain ⟨a, b⟩ := s
        cases a with
        | none => intro m hm; cases hm
        | some m =>
          intro q hq r hr
          simp only [mapLP, Option.map_some, Option.some.injEq] at hq
          subst hq
          obtain ⟨x, hx, rfl⟩ := List.mem_map.1 hr
          exact hlen (hs m rfl x hx)
    · show env'.lpState = mapLP _ env.lpState
      rw [he.lpState]
      have := ho.penalizers
      cases hs : env.lpState with
      | mk a b => rw [hs] at this; cases this; rfl
  have h1 := C157_suggestions_partial h.arranged hc hl ev deDup hd (X := inContext (pinned sp context) X)
    (pending := none) (ignored := none) hin (by simp) (by simp)
  simp only [Option.map_none] at h1
  rw [h1]
  cases hr : computeNext ev (restrictEnv (fill (colPinned (pinned sp context) sp.kinds)) env) spF none deDup
      (inContext (pinned sp context) X) none none with
  | error e => rfl
  | ok m =>
    simp only [Except.map, List.map_map, Except.ok.injEq]
    refine List.map_congr_left fun r hr' => ?_
    exact h.fill_row ((computeNext_length h.small.noBandit' hr r hr').trans (Arranged.expanded_length spF))

/-- Runs in a context: the same evaluations, costs, fits, results and exceptions. The evaluations so far need
not lie in the context. -/
theorem C157_context_runs_partial (h : ArrangedIn σ context sp sp' spF spF') {pc : Vec → Vec} {env env' : BOEnv}
    (hp : CorrParts (arrangeCols σ sp.kinds) (arrange σ) id pc env env') (ev : Evaluator) (deDup : Bool)
    (hd : deDup = false ∨ (∀ n, ev ≠ .random n) ∧ ∀ n, ev ≠ .thompson n) (envs envs' : BOState → EvalEnv)
    (hl : ∀ s, (envs s).op.anchorLogic ≠ "thompson_sampling")
    (ho : ∀ s, EnvOver spF.modelDim (envs s)) (ho' : ∀ s, EnvOver spF.modelDim (envs' s))
    (hc : ∀ s, CorrEnv sp.modelDim spF.modelDim (arrangeCols σ sp.kinds)
      (arrangeCols (freeOrder σ (pinned sp context)) spF.kinds)
      (SameDraws (freeOrder σ (pinned sp context)) spF.kinds) (envs s)
      (envs' (mapState (arrangeCols σ sp.kinds) (arrange σ) id pc s)))
    {a : RunArgs} (ha : a.context = some context) (fuel : Nat) {s : BOState} (hX : s.X ≠ [])
    (hlen : ∀ r ∈ s.X, r.length = sp.objectiveDim) :
    runOptimization { env' with sp := sp', suggest := stdSuggest sp' ev envs' deDup } a fuel
        (mapState (arrangeCols σ sp.kinds) (arrange σ) id pc s)
      = (mapState (arrangeCols σ sp.kinds) (arrange σ) id pc
            (runOptimization { env with sp := sp, suggest := stdSuggest sp ev envs deDup } a fuel s).1,
          (runOptimization { env with sp := sp, suggest := stdSuggest sp ev envs deDup } a fuel s).2) := by
  refine runOptimization_corr (env := { env with sp := sp, suggest := stdSuggest sp ev envs deDup })
    (env' := { env' with sp := sp', suggest := stdSuggest sp' ev envs' deDup }) (n := sp.expanded.length)
    (κ := id) (a := a) (a' := a) h.all.sameUnzip
    ⟨hp.obj, hp.clock, hp.fit, hp.params, hp.costFit, hp.lg, hp.normalizeY, hp.normalize, hp.interval⟩
    rfl (h.all.sameStopped a.eps) rfl ?_ ?_ fuel ⟨hX, hlen⟩
  · intro s hs hrows
    simp only [stdSuggest]
    have := C157_context_suggestions_partial h (hc s) (ho s) (ho' _) (hl s) ev deDup hd (X := s.X) hrows.2
    rw [hs, ha]
    show computeNext ev (envs' _) sp' (id s.context) deDup (s.X.map (arrange σ)) none none = _
    rw [hs, ha]
    exact this
  · intro s m hs hm r hr
    exact computeNext_length h.all.noBandit hm r hr

/-! ### A concrete case: the categorical variable is fixed, the two others change places -/

/-- The problem of `orderSp` without constraint, in both orders. -/
def freeSp : Space := { orderSp with constraints := none }

def freeSp' : Space := { orderSp' with constraints := none }

theorem freeSp_arranged : Arranged [2, 0, 1] freeSp freeSp' :=
  ⟨⟨freeSp.config, none, rfl⟩, ⟨freeSp'.config, none, rfl⟩, rfl, rfl, orderSp_arranged.domains,
    orderSp_arranged.nonempty, orderSp_arranged.order, rfl, .none⟩

theorem freeSp_arrangedIn : ∃ spF spF', ArrangedIn [2, 0, 1] [("c", 1)] freeSp freeSp' spF spF' := by
  refine C157_context_exists (config := freeSp.config) (config' := freeSp'.config) rfl rfl freeSp_arranged rfl
    (by decide) ⟨by decide, ?_⟩ ⟨by decide, ?_⟩ (by decide)
  · intro nv hnv
    simp only [Option.getD_some, List.mem_singleton] at hnv
    subst hnv
    exact ⟨_, rfl, 1, by simp, by simp⟩
  · intro nv hnv
    simp only [Option.getD_some, List.mem_singleton] at hnv
    subst hnv
    exact ⟨_, rfl, 1, by simp, by simp⟩

example : freeOrder [2, 0, 1] (pinned freeSp [("c", 1)]) = [1, 0] := by decide +kernel

/-- The hypotheses of the theorem about suggestions hold with the sum of the columns as acquisition. -/
example : ∃ spF spF', ArrangedIn [2, 0, 1] [("c", 1)] freeSp freeSp' spF spF' ∧
    CorrEnv freeSp.modelDim spF.modelDim (arrangeCols [2, 0, 1] freeSp.kinds)
      (arrangeCols (freeOrder [2, 0, 1] (pinned freeSp [("c", 1)])) spF.kinds)
      (SameDraws (freeOrder [2, 0, 1] (pinned freeSp [("c", 1)])) spF.kinds) (orderEnv [0, 1]) (orderEnv [1, 0]) ∧
    EnvOver spF.modelDim (orderEnv [0, 1]) ∧ EnvOver spF.modelDim (orderEnv [1, 0]) := by
  obtain ⟨spF, spF', h⟩ := freeSp_arrangedIn
  have hs : ∀ ks, SameDraws (freeOrder [2, 0, 1] (pinned freeSp [("c", 1)])) ks (orderDraws [0, 1])
      (orderDraws [1, 0]) := by
    have e : freeOrder [2, 0, 1] (pinned freeSp [("c", 1)]) = [1, 0] := by decide +kernel
    rw [e]
    intro ks
    refine ⟨rfl, fun t r i' i hi => ?_, fun t r i' i lo hi h1 h2 => rfl, fun r i' i lo hi h1 h2 => rfl⟩
    rcases i' with _ | _ | i' <;> simp at hi
    all_goals subst hi; rfl
  have ho : ∀ N n ks (E F : Vec → Vec),
      CorrOracle N n E F (SameDraws (freeOrder [2, 0, 1] (pinned freeSp [("c", 1)])) ks)
      { smallOracle with design := orderDraws [0, 1] } { smallOracle with design := orderDraws [1, 0] } := by
    intro N n ks E F
    refine ⟨hs ks, rfl, fun X _ => by simp [smallOracle], fun k g g' x hx hg => ⟨rfl, fun y hy => ?_⟩⟩
    cases hy
    exact hx
  refine ⟨spF, spF', h, ⟨rfl, fun x hx => ?_, ho _ _ _ _ _, ho _ _ _ _ _, rfl, rfl, fun s x _ hx => ?_,
    fun k => ho _ _ _ _ _, rfl, rfl⟩, ?_, ?_⟩
  · exact congrArg Except.ok (freeSp_arranged.arrangeCols_perm x).sum_eq
  · exact congrArg Except.ok (freeSp_arranged.arrangeCols_perm x).sum_eq
  · have := small_over spF.modelDim
    exact ⟨this.acq, this.batch, this.lp, this.penalizers⟩
  · have := small_over spF.modelDim
    exact ⟨this.acq, this.batch, this.lp, this.penalizers⟩

/-- Rows, and which of them are in the context, in both orders. -/
example : fill (pinned freeSp [("c", 1)]) [1 / 2, 3] = [1 / 2, 1, 3] ∧
    fill (pinned freeSp' [("c", 1)]) [3, 1 / 2] = [3, 1 / 2, 1] ∧
    inContext (pinned freeSp [("c", 1)]) [[1 / 2, 1, 3], [1 / 2, 0, 4]] = [[1 / 2, 3]] ∧
    inContext (pinned freeSp' [("c", 1)]) [[3, 1 / 2, 1], [4, 1 / 2, 0]] = [[3, 1 / 2]] := by
  refine ⟨by decide +kernel, by decide +kernel, by decide +kernel, by decide +kernel⟩

end GPyOpt.Props
