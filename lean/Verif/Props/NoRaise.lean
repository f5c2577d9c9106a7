import Verif.Props.Search
import Verif.Props.Cost
import Verif.Props.Constructor

/-!
# Property C140: with components that do not raise an optimization raises nothing
-/

namespace GPyOpt.Props

open GPyOpt Spec

/-- Acquisition, local optimizers, random sources and Lipschitz estimates do not raise. -/
structure CalmEnv (env : EvalEnv) : Prop where
  good : GoodEnv env
  name : env.op.optimizerName ∈ ["lbfgs", "DIRECT", "CMA"]
  logic : env.op.anchorLogic ∈ ["max_objective", "thompson_sampling"]
  f : ∀ x, ∃ v, env.f x = .ok v
  opt : ∀ k g x, ∃ y, env.oracle.acq.opt k g x = .ok y
  thompson : ∀ X, ∃ s, env.oracle.acq.thompson X = .ok s
  batchOpt : ∀ k g x, ∃ y, env.oracle.batch.opt k g x = .ok y
  batchThompson : ∀ X, ∃ s, env.oracle.batch.thompson X = .ok s
  lp : ∀ k, GoodAcq (env.acqLP k)
  lpOpt : ∀ j k g x, ∃ y, (env.acqLP j).opt k g x = .ok y
  lpThompson : ∀ k X, ∃ s, (env.acqLP k).thompson X = .ok s
  fLP : ∀ s x, ∃ v, env.fLP s x = .ok v
  consts : ∃ c, env.lpConsts = .ok c

/-- In a constrained space: the designs that an evaluator draws find their samples. (The anchor points of the acquisition must be
scored by the acquisition: the alternative is a Sobol design, which is refused in a constrained space, C17.) -/
def DesignsFound (sp : Space) (c : Ctx) (env : EvalEnv) : Evaluator → Prop
  | .sequential => AcqSampled sp c env.op env.oracle.acq.design
  | .random _ => AcqSampled sp c env.op env.oracle.acq.design ∧
      SamplesFound sp c "random" env.numSamplesRandom env.oracle.batch.design
  | .thompson _ => SamplesFound sp c "random" env.numSamplesThompson env.oracle.batch.design
  | .localPenalization _ => ∀ k, AcqSampled sp c env.op (env.acqLP k).design

section
variable {config : List Desc} {cs : Option (List ConstrDict)} {sp : Space} (h : designSpace config cs = .ok sp) (hb : sp.hasBandit = false)
include h hb

theorem batchLoop_total {context : Option Context} {optAnchor : Nat → Vec → Py Vec} {P : Vec → Prop}
    (hO : ∀ k a z0, GoodRow sp.kinds sp context a z0 → P z0 →
      ∃ z, optAnchor k a = .ok (encodeRow sp.kinds z) ∧ ObjDomain sp.kinds z) (n : Nat) (as : Mat) :
    ∀ (k : Nat) (batch : Mat) (seen : List Vec), (∀ a ∈ as, ∃ z, GoodRow sp.kinds sp context a z ∧ P z) →
      ∃ b, batchLoop sp optAnchor n k as batch seen = .ok b := by
  induction as with
  | nil => intro k batch seen _; exact ⟨_, rfl⟩
  | cons a as ih =>
    intro k batch seen hA
    obtain ⟨za, ⟨hae, hzaD, hca⟩, hPa⟩ := hA a (by simp)
    obtain ⟨z, hz1, hz2⟩ := hO k a za ⟨hae, hzaD, hca⟩ hPa
    have ih' := fun k batch seen => ih k batch seen (fun a' ha' => hA a' (by simp [ha']))
    unfold batchLoop
    simp only [hz1, zipTuple_encode h hb hz2]
    rw [hae]
    simp only [zipTuple_encode h hb hzaD]
    split_ifs <;> first | exact ⟨_, rfl⟩ | exact ih' _ _ _

variable (hs : ∀ k ∈ kindsOf config, Samplable k) (hvar : kindsOf config ≠ [])
include hs hvar

theorem thompsonOptimize_total {context : Option Context} (hg : ValidContext sp context) {env : EvalEnv} (he : CalmEnv env)
    {c : Ctx} (hc : contextManager sp context = .ok c) (dup : Option DupMgr) (k : Nat) {a z0 : Vec}
    (ha : GoodRow sp.kinds sp context a z0) (hd : ¬ InDup dup z0) :
    ∃ z, thompsonOptimize sp c dup env.oracle.batch env.f k a = .ok (encodeRow sp.kinds z) ∧
      ObjDomain sp.kinds z ∧ HasContext sp context z := by
  have hne : ∀ k ∈ kindsOf config, NonEmptyDom k := fun k hk => samplable_nonEmpty (hs k hk)
  have hk := space_kinds_eq h
  have ha' := ha
  rw [hk] at ha'
  have hC := ((C26_apply_optimizer h hb hne hvar context hg c hc dup _ (he.good.batch.opt k) env.f a z0 ha').2 hd)
  obtain ⟨r, hr⟩ := hC.2 (he.batchOpt k) he.f
  obtain ⟨z, ⟨hz1, hz2, -⟩, -⟩ := hC.1 r hr
  have hround : sp.roundOptimum2d [r.1] = .ok [r.1] := by
    have := C04_round_fixed h hb hne hvar r.1 (hz1 ▸ encodeRow_modelDomain hz2)
    simpa [Space.roundOptimum2d] using this
  have hx : thompsonOptimize sp c dup env.oracle.batch env.f k a = .ok r.1 := by
    simp only [thompsonOptimize, hr, hround]
  obtain ⟨z, ⟨h1, hz, hcz⟩, -⟩ := thompsonOptimize_sound h hb (hk ▸ hne) (hk ▸ hvar) hg hc he.good.batch.opt ha hd hx
  exact ⟨z, h1 ▸ hx, hz, hcz⟩

/-- Suggestions are made, for every evaluator, unless the domain is reported as fully explored. -/
theorem suggestions_exist {context : Option Context} (hg : ValidContext sp context) {env : EvalEnv} (he : CalmEnv env)
    {deDup : Bool} {ev : Evaluator} (hev : GoodEvaluator deDup ev)
    (hfound : cs = none ∨ ∀ c, contextManager sp context = .ok c → DesignsFound sp c env ev) (X : Mat)
    (pending ignored : Option Mat) :
    (∃ m, computeNext ev env sp context deDup X pending ignored = .ok m ∧ m ≠ []) ∨
      (deDup = true ∧ computeNext ev env sp context deDup X pending ignored = .error .fullyExplored) := by
  obtain ⟨c, -, hc, -⟩ := C23_context_partition h hb (fun k hk => samplable_nonEmpty (hs k hk))
    context (validContext_good hg)
  have hs0 := hs
  have hvar0 := hvar
  rw [← space_kinds_eq h] at hs hvar
  replace hfound := hfound.imp_right fun h => h c hc
  have hacq := fun hf dup => acqOptimize_total h hb hs hvar hg hc dup he.good.op he.name he.logic he.good.acq he.f he.opt
    he.thompson hf
  unfold computeNext
  simp only [hc]
  generalize hdup : (if deDup = true then some (dupMgr X pending ignored) else none) = dup
  have hnone : dup ≠ none → deDup = true := by
    cases deDup
    · intro h0; exact absurd hdup.symm (by simpa using h0)
    · simp
  have hrows : ∀ {b : Mat}, b ≠ [] → (∀ x ∈ b, ∃ z, GoodRow sp.kinds sp context x z ∧ ¬ InDup none z) →
      ∃ m, sp.zipInputs b = .ok m ∧ m ≠ [] := by
    intro b hbne hgood
    obtain ⟨Z, rfl, hZ⟩ := exists_rows hgood
    have hZne : Z ≠ [] := by rintro rfl; exact hbne rfl
    exact ⟨Z, zipInputs_encode_all h hb hZne fun z hz => (hZ z hz).1, hZne⟩
  have hN : ∀ z, ¬ InDup none z := by
    intro z hz
    exact absurd hz (by simp [InDup])
  -- the loop over the anchor points
  have hded : ∀ (dm : DupMgr) (n : Nat), 1 ≤ n → ∀ (optAnchor : Nat → Vec → Py Vec),
      (∀ k a z0, GoodRow sp.kinds sp context a z0 → ¬ InDup (some dm) z0 →
        ∃ z, optAnchor k a = .ok (encodeRow sp.kinds z) ∧ ObjDomain sp.kinds z) →
      (∀ k a z0 x, GoodRow sp.kinds sp context a z0 → ¬ InDup (some dm) z0 → optAnchor k a = .ok x →
        ∃ z, GoodRow sp.kinds sp context x z ∧ ¬ InDup (some dm) z) →
      ∀ (as : Mat), as ≠ [] → (∀ a ∈ as, ∃ z, GoodRow sp.kinds sp context a z ∧ ¬ InDup (some dm) z) →
      ∀ (Z0 : Mat) (seen : List Vec), (∀ z ∈ Z0, ObjDomain sp.kinds z ∧ HasContext sp context z) →
        seen = Z0 ++ dm.points →
      ∃ b m, batchLoop sp optAnchor n 0 as (Z0.map (encodeRow sp.kinds)) seen = .ok b ∧ b ≠ [] ∧
        sp.zipInputs b = .ok m ∧ m ≠ [] := by
    intro dm n hn optAnchor hO hO' as hAne hA Z0 seen hZ0 hseen
    obtain ⟨b, hbl⟩ := batchLoop_total h hb (P := fun z => ¬ InDup (some dm) z) hO n as 0
      (Z0.map (encodeRow sp.kinds)) seen hA
    obtain ⟨Z, e1, e2, e3, e4, e5⟩ := batchLoop_spec h hb (context := context) (fun z => ¬ InDup (some dm) z)
        hO' n as 0 _ _ _ hA hbl
    rw [← List.map_append] at e1
    have hZ : Z0 ++ Z ≠ [] := by
      intro hZ
      rw [List.append_eq_nil_iff] at hZ
      obtain ⟨rfl, rfl⟩ := hZ
      rcases e5 with e5 | e5
      · rw [e1] at e5; simp at e5; omega
      · obtain ⟨a, as', rfl⟩ := List.exists_cons_of_ne_nil hAne
        obtain ⟨z, -, -, g3, g4⟩ := e5 0 a rfl
        rcases g4 with g4 | g4
        · rw [hseen] at g4
          exact not_inDup_iff.1 g3 (by simpa using g4)
        · simp at g4
    have hbne : b ≠ [] := by rw [e1]; simpa using hZ
    refine ⟨b, Z0 ++ Z, hbl, hbne, ?_, hZ⟩
    rw [e1]
    refine zipInputs_encode_all h hb hZ fun z hz => ?_
    rcases List.mem_append.1 hz with hz | hz
    · exact (hZ0 z hz).1
    · exact (e2 z hz).1
  cases ev with
  | sequential =>
    simp only [computeBatch, sequentialBatch]
    rcases hacq hfound dup with ⟨h0, hr⟩ | ⟨⟨x, v⟩, hr⟩
    · exact .inr ⟨hnone h0, by simp only [hr]⟩
    · left
      obtain ⟨z, ⟨hx, hz, -⟩, -⟩ := acqOptimize_sound h hb hs hvar hg hc he.good.op he.good.acq hr
      simp only at hx
      subst hx
      exact ⟨[z], by simp only [hr]; exact zipInputs_encode h hb hz, by simp⟩
  | random n =>
    have hanc := anchorPoints_total h hb hs hg hc he.good.batch.unit (t := "random") (by simp) he.good.nRandom
      dup.isSome dup (5 * n) randomScores_shape (fun X => ⟨_, rfl⟩) he.good.batch.argsort
      (hfound.imp_right And.right)
    have hn : 1 ≤ n := by
      cases deDup
      · exact hev
      · have : 2 ≤ n := hev
        omega
    simp only [computeBatch, randomBatch]
    cases dup with
    | none =>
      simp only
      rcases hacq (hfound.imp_right And.left) none with ⟨h0, -⟩ | ⟨⟨x, v⟩, hr⟩
      · exact absurd rfl h0
      rcases hanc with ⟨h0, -⟩ | ⟨as, has⟩
      · exact absurd rfl h0
      left
      obtain ⟨hA, -⟩ := anchorPoints_sound h hb hs hg hc he.good.batch.unit (by simp) he.good.nRandom randomScores_shape
        he.good.batch.argsort has
      obtain ⟨z, hz, -⟩ := acqOptimize_sound h hb hs hvar hg hc he.good.op he.good.acq hr
      simp only [hr, randomBatchAnchors, has]
      refine hrows (by simp) ?_
      intro y hy
      rcases List.mem_cons.1 hy with rfl | hy
      · exact ⟨z, hz, hN z⟩
      · exact hA y (List.mem_of_mem_take hy)
    | some dm =>
      simp only [dedupBatch]
      rcases hanc with ⟨h0, has⟩ | ⟨as, has⟩
      · exact .inr ⟨hnone h0, by simp only [randomBatchAnchors, has]⟩
      obtain ⟨hA, hAne⟩ := anchorPoints_sound h hb hs hg hc he.good.batch.unit (by simp) he.good.nRandom
        randomScores_shape he.good.batch.argsort has
      have hAne := hAne (by omega)
      rcases hacq (hfound.imp_right And.left) (some dm) with ⟨h0, hr⟩ | ⟨⟨x, v⟩, hr⟩
      · exact .inr ⟨hnone h0, by simp only [randomBatchAnchors, has, hr, Except.map]⟩
      left
      obtain ⟨z, ⟨hx, hz, hcz⟩, -⟩ := acqOptimize_sound h hb hs hvar hg hc he.good.op he.good.acq hr
      simp only at hx
      subst hx
      have hO : ∀ (k : Nat) (a z0 : Vec), GoodRow sp.kinds sp context a z0 → ¬ InDup (some dm) z0 →
          ∃ z, (fun _ a => .ok a : Nat → Vec → Py Vec) k a = .ok (encodeRow sp.kinds z) ∧ ObjDomain sp.kinds z :=
        fun k a z0 ha _ => ⟨z0, by rw [ha.1], ha.2.1⟩
      have hO' : ∀ (k : Nat) (a z0 x : Vec), GoodRow sp.kinds sp context a z0 → ¬ InDup (some dm) z0 →
          (fun _ a => .ok a : Nat → Vec → Py Vec) k a = .ok x →
          ∃ z, GoodRow sp.kinds sp context x z ∧ ¬ InDup (some dm) z := by
        intro k a z0 x ha hd hax
        simp only [Except.ok.injEq] at hax
        subst hax
        exact ⟨z0, ha, hd⟩
      simp only [randomBatchAnchors, has, hr, Except.map]
      by_cases hany : npAny [encodeRow sp.kinds z] = true
      · simp only [hany, if_true, zipTuple_encode h hb hz]
        obtain ⟨b, m, g1, g2, g3, g4⟩ := hded dm n hn _ hO hO' as hAne hA [z] _ (by simp [hz, hcz]) rfl
        simp only [List.map_cons, List.map_nil, List.cons_append, List.nil_append] at g1
        simp only [g1, vstack, g2, if_false]
        exact ⟨m, g3, g4⟩
      · simp only [hany]
        obtain ⟨b, m, g1, g2, g3, g4⟩ := hded dm n hn _ hO hO' as hAne hA [] _ (by simp) rfl
        simp only [List.map_nil, List.nil_append] at g1
        simp only [Bool.false_eq_true, if_false, g1, vstack, g2]
        exact ⟨m, g3, g4⟩
  | thompson n =>
    have hn : 1 ≤ n := hev
    have hanc := anchorPoints_total h hb hs hg hc he.good.batch.unit (t := "random") (by simp) he.good.nThompson
      dup.isSome dup (5 * n) he.good.batch.thompson he.batchThompson he.good.batch.argsort hfound
    simp only [computeBatch, thompsonBatch]
    cases dup with
    | none =>
      simp only
      rcases hanc with ⟨h0, -⟩ | ⟨as, has⟩
      · exact absurd rfl h0
      left
      obtain ⟨hA, hAne⟩ := anchorPoints_sound h hb hs hg hc he.good.batch.unit (by simp) he.good.nThompson
        he.good.batch.thompson he.good.batch.argsort has
      have hAne := hAne (by omega)
      have hmem : ∀ ka ∈ as.zipIdx.take n, ka.1 ∈ as := by
        intro ka hka
        have := List.mem_of_mem_take hka
        exact List.fst_mem_of_mem_zipIdx this
      obtain ⟨b, hbm⟩ : ∃ b, mapE (fun ka : Vec × Nat => thompsonOptimize sp c none env.oracle.batch env.f ka.2 ka.1)
          (as.zipIdx.take n) = .ok b := by
        refine mapE_total fun ka hka => ?_
        obtain ⟨z, hz, hd⟩ := hA ka.1 (hmem ka hka)
        obtain ⟨z', h1, -⟩ := thompsonOptimize_total h hb hs0 hvar0 hg he hc none ka.2 hz hd
        exact ⟨_, h1⟩
      have hbne : b ≠ [] := by
        rintro rfl
        have := mapE_length hbm
        rw [List.length_take, List.length_zipIdx] at this
        have h1 : as.length ≠ 0 := fun h0 => hAne (List.length_eq_zero_iff.1 h0)
        simp only [List.length_nil] at this
        omega
      simp only [Option.isSome_none] at has
      simp only [thompsonBatchAnchors, Option.isSome_none, has, hbm, vstack, hbne, if_false]
      refine hrows hbne ?_
      intro x hx
      obtain ⟨ka, hka, hxe⟩ := mapE_ok_mem hbm hx
      obtain ⟨z, hz, hd⟩ := hA ka.1 (hmem ka hka)
      obtain ⟨z', h1, h2, h3⟩ := thompsonOptimize_total h hb hs0 hvar0 hg he hc none ka.2 hz hd
      rw [hxe] at h1
      injection h1 with h1
      exact ⟨z', ⟨h1, h2, h3⟩, hN _⟩
    | some dm =>
      simp only [dedupBatch]
      rcases hanc with ⟨h0, has⟩ | ⟨as, has⟩
      · exact .inr ⟨hnone h0, by simp only [thompsonBatchAnchors, has]⟩
      left
      obtain ⟨hA, hAne⟩ := anchorPoints_sound h hb hs hg hc he.good.batch.unit (by simp) he.good.nThompson
        he.good.batch.thompson he.good.batch.argsort has
      have hAne := hAne (by omega)
      simp only [thompsonBatchAnchors, has]
      obtain ⟨b, m, g1, g2, g3, g4⟩ := hded dm n hn (thompsonOptimize sp c (some dm) env.oracle.batch env.f)
        (fun k a z0 ha hd => by
          obtain ⟨z, h1, h2, -⟩ := thompsonOptimize_total h hb hs0 hvar0 hg he hc (some dm) k ha hd
          exact ⟨z, h1, h2⟩)
        (fun k a z0 x ha hd hax => thompsonOptimize_sound h hb (fun k hk => samplable_nonEmpty (hs k hk)) hvar hg hc
          he.good.batch.opt ha hd hax)
        as hAne hA [] _ (by simp) rfl
      simp only [List.map_nil, List.nil_append] at g1
      simp only [g1, vstack, g2, if_false]
      exact ⟨m, g3, g4⟩
  | localPenalization n =>
    left
    simp only [computeBatch]
    have hopt : ∀ k st, ∃ x, (fun k s => (acqOptimize sp c none env.op (env.acqLP k) (env.fLP s)).map Prod.fst) k st
        = .ok x := by
      intro k st
      rcases acqOptimize_total h hb hs hvar hg hc none he.good.op he.name he.logic (he.lp k) (he.fLP st) (he.lpOpt k)
        (he.lpThompson k) (hfound.imp_right fun h => h k) with ⟨h0, -⟩ | ⟨r, hr⟩
      · exact absurd rfl h0
      · exact ⟨r.1, by simp only [hr, Except.map]⟩
    obtain ⟨⟨b, s', tr⟩, hr⟩ := C32_local_penalization_total _ env.lpConsts n env.lpState hopt he.consts
    obtain ⟨e1, -, -, e4⟩ := C32_local_penalization _ _ n _ _ _ _ hr
    rw [hr]
    simp only [Except.map]
    refine hrows ?_ ?_
    · rintro rfl; simp at e1; omega
    · intro x hx
      obtain ⟨j, hj, hjx⟩ := List.getElem_of_mem hx
      obtain ⟨st, y, -, g2, g3, -⟩ := e4 j hj
      have hxy : y = x := by
        rw [List.getElem?_eq_getElem hj, hjx] at g2; simpa using g2.symm
      subst hxy
      cases hq : acqOptimize sp c none env.op (env.acqLP j) (env.fLP st) with
      | error e => simp only [hq, Except.map] at g3; cases g3
      | ok q =>
        simp only [hq, Except.map, Except.ok.injEq] at g3
        subst g3
        obtain ⟨z, g1, g2, -⟩ := acqOptimize_sound h hb hs hvar hg hc he.good.op (he.lp j) hq
        exact ⟨z, g1, g2⟩

end

/-! ## Runs -/

/-- The components of an optimizer that do not raise; the objective need not be defined outside of the
domain. -/
structure CalmBO (sp : Space) (ev : Evaluator) (deDup : Bool) (env : BOEnv) (envs : BOState → EvalEnv) : Prop where
  space : env.sp = sp
  suggest : env.suggest = stdSuggest sp ev envs deDup
  fit : ∀ s X Y, env.fit s X Y = .ok ()
  params : ∀ s, ∃ p, env.params s = .ok p
  costFit : ∀ s, env.costFit s = .ok ()
  interval : env.interval ≠ 0
  calm : ∀ s, CalmEnv (envs s)
  samples : ∀ s n, ev = .random n → n - 1 ≤ (envs s).numSamplesRandom
  obj : ∃ obj, env.obj = some obj ∧ ∀ k x, ObjDomain sp.kinds x → ∃ v, obj k x = .ok v

/-- The data of the model of the evaluation time are as many locations as times. -/
def SoundCost (c : CostModel) : Prop :=
  c.kind = .evaluationTime → c.numUpdates ≠ 0 → ∃ X Y, c.data = some (X, Y) ∧ X.length = Y.length

/-- Data of an optimizer between two calls of its interface. -/
structure SoundData (sp : Space) (s : BOState) : Prop where
  ne : s.X ≠ []
  rows : ∀ x ∈ s.X, ObjDomain sp.kinds x
  Y : ∃ Y, s.Y = some Y ∧ Y.length = s.X.length
  cost : SoundCost s.cost

theorem evalFunc_total {obj : Nat → Vec → Py ℚ} {clock : Nat → ℚ} {m : Mat}
    (h : ∀ k, ∀ x ∈ m, ∃ v, obj k x = .ok v) (w : World) :
    ∃ w' ys ts, evalFunc obj clock m w = (w', .ok (ys, ts)) := by
  induction m generalizing w with
  | nil => exact ⟨w, [], [], rfl⟩
  | cons x m ih =>
    obtain ⟨v, hv⟩ := h w.calls.length x (by simp)
    obtain ⟨w', ys, ts, he⟩ := ih (fun k x hx => h k x (by simp [hx]))
      { calls := w.calls ++ [(x, .ok v)], ticks := w.ticks + 2 }
    exact ⟨w', v :: ys, (clock (w.ticks + 1) - clock w.ticks) :: ts, by simp only [evalFunc, hv, he]⟩

theorem costUpdate_total {c : CostModel} (hc : SoundCost c) (lg : ℚ → ℚ) {m : Mat} {ts : Vec}
    (hl : ts.length = m.length) : ∃ c', c.update lg (.ok ()) m (.list ts) = (c', .ok ()) ∧ SoundCost c' := by
  by_cases hk : c.kind = .evaluationTime
  · unfold CostModel.update
    simp only [hk, costColumn, columnValues_map, List.length_map]
    by_cases h0 : c.numUpdates = 0
    · rw [if_pos h0, if_pos hl.symm]
      exact ⟨_, rfl, fun _ _ => ⟨m, ts.map lg, rfl, by simp [hl]⟩⟩
    · rw [if_neg h0]
      obtain ⟨X, Y, hd, hXY⟩ := hc hk h0
      simp only [hd]
      rw [if_pos (by simp [hXY, hl])]
      exact ⟨_, rfl, fun _ _ => ⟨X ++ m, Y ++ ts.map lg, rfl, by simp [hXY, hl]⟩⟩
  · exact ⟨c, update_other hk, hc⟩

section
variable {config : List Desc} {cs : Option (List ConstrDict)} {sp : Space} (h : designSpace config cs = .ok sp) (hb : sp.hasBandit = false)
  (hs : ∀ k ∈ kindsOf config, Samplable k) (hvar : kindsOf config ≠ []) {ev : Evaluator} {deDup : Bool}
  (hev : GoodEvaluator deDup ev) {envs : BOState → EvalEnv} {env : BOEnv} (hr : CalmBO sp ev deDup env envs)
include h hb hr

theorem updateModel_total {s : BOState} (hd : SoundData sp s) : ∃ ps fs,
    updateModel env s = ({ s with params := ps, fits := s.fits ++ fs }, .ok ()) := by
  rcases hup : updateModel env s with ⟨s1, q⟩
  obtain ⟨ps, fs, hfr⟩ := updateModel_frame hup
  refine ⟨ps, fs, ?_⟩
  have hq : (updateModel env s).2 = .ok () := by
    obtain ⟨Y, hY, -⟩ := hd.Y
    have hk := space_kinds_eq h
    have hu := (C01_zip_unzip h hb s.X hd.ne (fun r hr =>
      (hk ▸ hd.rows r hr).imp fun _ _ hv => encodable_of_validObj hv)).1
    unfold updateModel
    rw [if_neg hr.interval, hr.space, hu, hY]
    simp only [hr.fit]
    have hsave : ∀ t : BOState, (saveParams env t).2 = .ok () := by
      intro t
      unfold saveParams
      obtain ⟨p, hp⟩ := hr.params t
      rw [hp]
      cases t.params <;> rfl
    split_ifs <;> exact hsave _
  rw [hup] at hq
  simp only at hq
  rw [hq, hfr]

variable (hfound : cs = none ∨ ∀ (s : BOState) (c : Ctx), contextManager sp s.context = .ok c → DesignsFound sp c (envs s) ev)
include hs hvar hev hfound

/-- One round: it stops for a reason other than a failed fit, or reports a fully explored domain, or there is another round. -/
theorem boRound_total {obj : Nat → Vec → Py ℚ} (hobj : ∀ k x, ObjDomain sp.kinds x → ∃ v, obj k x = .ok v)
    {mi mt : Limit} {eps : ℚ} {s : BOState} (hd : SoundData sp s) (hg : ValidContext sp s.context) :
    (∃ s' why, boRound env obj mi mt eps s = .stop s' why ∧ why ≠ .fit ∧ SoundData sp s') ∨
    (∃ s', boRound env obj mi mt eps s = .raised s' .fullyExplored ∧ deDup = true ∧ SoundData sp s') ∨
    ∃ s', boRound env obj mi mt eps s = .next s' ∧ SoundData sp s' ∧ ValidContext sp s'.context := by
  unfold boRound
  by_cases ht : mt.exceeds s.cumTime = true
  · rw [if_pos ht]
    obtain ⟨ps, fs, hu⟩ := updateModel_total h hb hr hd
    rw [hu]
    simp only
    have hd1 : SoundData sp { s with params := ps, fits := s.fits ++ fs } := ⟨hd.ne, hd.rows, hd.Y, hd.cost⟩
    split_ifs with hl
    · exact .inl ⟨_, .limit, rfl, by simp, hd1⟩
    · rw [hr.suggest]
      unfold stdSuggest
      simp only
      generalize henv : envs { s with params := ps, fits := s.fits ++ fs } = en
      have hc : CalmEnv en := henv ▸ hr.calm _
      have hns : ∀ n, ev = .random n → n - 1 ≤ en.numSamplesRandom := henv ▸ hr.samples _
      rcases suggestions_exist h hb hs hvar hg hc hev
          (hfound.imp_right fun hf => henv ▸ hf { s with params := ps, fits := s.fits ++ fs }) s.X none none with ⟨m, hm, hmne⟩ | ⟨hdd, hm⟩
      · right; right
        have hdom : ∀ x ∈ m, ObjDomain sp.kinds x := by
          intro x hx
          have := (suggestions_in_domain h hb hs hvar hg hc.good hc.lp hev hns hm x hx).1
          rwa [← space_kinds_eq h] at this
        obtain ⟨w, ys, ts, he⟩ := evalFunc_total (clock := env.clock) (fun k x hx => hobj k x (hdom x hx)) s.world
        obtain ⟨e1, e2, -⟩ := evalFunc_ok he
        obtain ⟨c, hcu, hcs⟩ := costUpdate_total hd.cost env.lg e2
        obtain ⟨Y, hY, hYl⟩ := hd.Y
        rw [hm]
        simp only [evaluateObjective, he, hr.costFit, hcu, hY]
        refine ⟨_, rfl, ⟨?_, ?_, ⟨_, rfl, ?_⟩, hcs⟩, hg⟩
        · simp [hd.ne]
        · intro x hx
          rcases List.mem_append.1 hx with hx | hx
          · exact hd.rows x hx
          · exact hdom x hx
        · simp [hYl, e1]
      · right; left
        rw [hm]
        exact ⟨_, rfl, hdd, hd1⟩
  · rw [if_neg ht]
    exact .inl ⟨s, .time, rfl, by simp, hd⟩

theorem boLoop_total {obj : Nat → Vec → Py ℚ} (hobj : ∀ k x, ObjDomain sp.kinds x → ∃ v, obj k x = .ok v)
    {mi mt : Limit} {eps : ℚ} (fuel : Nat) {s : BOState} (hd : SoundData sp s) (hg : ValidContext sp s.context) :
    SoundData sp (boLoop env obj mi mt eps fuel s).1 ∧
    ((∃ why, (boLoop env obj mi mt eps fuel s).2 = .done why ∧ why ≠ .fit) ∨
      ((boLoop env obj mi mt eps fuel s).2 = .raised .fullyExplored ∧ deDup = true) ∨
      (boLoop env obj mi mt eps fuel s).2 = .running) := by
  induction fuel generalizing s with
  | zero => exact ⟨hd, .inr (.inr rfl)⟩
  | succ fuel ih =>
    unfold boLoop
    rcases boRound_total h hb hs hvar hev hr hfound hobj (mi := mi) (mt := mt) (eps := eps) hd hg with
      ⟨s', why, h1, h2, h3⟩ | ⟨s', h1, h2, h3⟩ | ⟨s', h1, h2, h3⟩
    · rw [h1]; exact ⟨h3, .inl ⟨why, rfl, h2⟩⟩
    · rw [h1]; exact ⟨h3, .inr (.inl ⟨rfl, h2⟩)⟩
    · rw [h1]; exact ih h2 h3

/-- **C140.** A space without constraints, or with constraints under which the samples are found; any evaluator, components that do not raise and an objective that is defined on the domain. A
run (also one whose initial outputs are not given) with any budgets raises nothing: it ends with a result, for a reason other
than a failed fit; or, only with de-duplication, it reports a fully explored domain; or it is still running after the given
number of rounds. The data are well-formed afterwards. -/
theorem C140_run_raises_nothing (a : RunArgs) (hg : ValidContext sp a.context) (fuel : Nat) (s : BOState) (hne : s.X ≠ [])
    (hX : ∀ x ∈ s.X, ObjDomain sp.kinds x) (hY : ∀ Y, s.Y = some Y → Y.length = s.X.length) (hc : SoundCost s.cost) :
    SoundData sp (runOptimization env a fuel s).1 ∧
    ((∃ why, (runOptimization env a fuel s).2 = .done why ∧ why ≠ .fit ∧
        (runOptimization env a fuel s).1.results.isSome) ∨
      ((runOptimization env a fuel s).2 = .raised .fullyExplored ∧ deDup = true) ∨
      (runOptimization env a fuel s).2 = .running) := by
  obtain ⟨obj, ho, hobj⟩ := hr.obj
  have hstart : ∃ s0, runStart env obj a s = (s0, .ok ()) ∧ SoundData sp s0 ∧ s0.context = a.context := by
    unfold runStart
    cases hY' : s.Y with
    | some Y => exact ⟨_, rfl, ⟨hne, hX, ⟨Y, rfl, hY Y hY'⟩, hc⟩, rfl⟩
    | none =>
      obtain ⟨w, ys, ts, he⟩ := evalFunc_total (clock := env.clock) (fun k x hx => hobj k x (hX x hx)) s.world
      obtain ⟨e1, e2, -⟩ := evalFunc_ok he
      obtain ⟨c, hcu, hcs⟩ := costUpdate_total hc env.lg e2
      simp only [he, hr.costFit, hcu]
      split_ifs
      · exact ⟨_, rfl, ⟨hne, hX, ⟨ys, rfl, e1⟩, hcs⟩, rfl⟩
      · exact ⟨_, rfl, ⟨hne, hX, ⟨ys, rfl, e1⟩, hc⟩, rfl⟩
  obtain ⟨s0, h0, hd0, hc0⟩ := hstart
  obtain ⟨hd, hout⟩ := boLoop_total h hb hs hvar hev hr hfound hobj (mi := a.limits.1) (mt := a.limits.2) (eps := a.eps) fuel hd0
    (by rw [hc0]; exact hg)
  unfold runOptimization
  rw [ho]
  simp only [h0]
  rcases hl : boLoop env obj a.limits.1 a.limits.2 a.eps fuel s0 with ⟨s2, q⟩
  rw [hl] at hd hout
  simp only at hd hout
  rcases hout with ⟨why, rfl, hw⟩ | ⟨rfl, hdd⟩ | rfl
  · obtain ⟨Y, hY2, hYl⟩ := hd.Y
    simp only [hY2]
    have hYne : Y ≠ [] := by
      rintro rfl
      exact hd.ne (List.length_eq_zero_iff.1 hYl.symm)
    obtain ⟨i, v, h1, h2, h3, -⟩ := argmin_spec hYne
    have hx : npGet s2.X i = .ok s2.X[i] := npGet_ok.2 (List.getElem?_eq_getElem (hYl ▸ h2))
    have hy : npGet Y i = .ok v := npGet_ok.2 h3
    unfold computeResults
    simp only [h1, hx, hy]
    exact ⟨⟨hd.ne, hd.rows, ⟨Y, rfl, hYl⟩, hd.cost⟩, .inl ⟨why, rfl, hw, rfl⟩⟩
  · exact ⟨hd, .inr (.inl ⟨rfl, hdd⟩)⟩
  · exact ⟨hd, .inr (.inr rfl)⟩

/-- **C140**, termination: with a budget of `n` iterations and no limit of time the run makes all of them, or two consecutive
locations were closer than `eps`, or (only with de-duplication) it reports a fully explored domain. -/
theorem C140_run_completes (a : RunArgs) (hg : ValidContext sp a.context) (n : Nat) (hn : a.maxIter = some (.fin n))
    (ht : a.maxTime = none) (fuel : Nat) (hfuel : n < fuel) (s : BOState) (hne : s.X ≠ [])
    (hX : ∀ x ∈ s.X, ObjDomain sp.kinds x) (hY : ∀ Y, s.Y = some Y → Y.length = s.X.length) (hc : SoundCost s.cost) :
    ((runOptimization env a fuel s).2 = .done .limit ∧
      ((runOptimization env a fuel s).1.numAcq = n ∨ CloseLast a.eps (runOptimization env a fuel s).1.X)) ∨
    ((runOptimization env a fuel s).2 = .raised .fullyExplored ∧ deDup = true) := by
  obtain ⟨-, hout⟩ := C140_run_raises_nothing h hb hs hvar hev hr hfound a hg fuel s hne hX hY hc
  rcases hrun : runOptimization env a fuel s with ⟨s', q⟩
  have hlim : a.limits = (.fin (n : ℚ), .inf) := by simp [RunArgs.limits, hn, ht]
  rw [hrun] at hout
  rcases hout with ⟨why, hq, hw, -⟩ | hq | hq
  · left
    simp only at hq
    subst hq
    obtain ⟨bs, at_, t, -, h2, -, -, h5, -, h7⟩ := C38_stop_conditions env a fuel s s' why hrun
    cases why with
    | fit => exact absurd rfl hw
    | time =>
      have := h5 rfl
      rw [← exceeds_time, hlim] at this
      simp [Limit.exceeds] at this
    | limit =>
      refine ⟨rfl, ?_⟩
      obtain ⟨-, -, h8⟩ := h7 rfl
      obtain ⟨-, -, -, -, -, hbud⟩ := C37_iteration_budget env a fuel s s' .limit hrun
      rcases h8 with h8 | h8
      · left
        rw [← exceeds_rounds, hlim] at h8
        simp only [Limit.exceeds, decide_eq_true_eq, not_lt] at h8
        exact le_antisymm (hbud n hn) (by exact_mod_cast h8)
      · right
        simp only
        rw [h2]; exact h8
  · exact .inr hq
  · exact absurd hq (by have := C37_terminates env a s n hn fuel hfuel; rwa [hrun] at this)

/-- The outcome of a call of the interface is not an exception, except (with de-duplication) of a fully explored domain. -/
def Quiet (env : BOEnv) (deDup : Bool) (s : BOState) : Op → Prop
  | .suggest c p i => (∃ m, (suggestNext env c p i s).2 = .ok m ∧ m ≠ []) ∨
      ((suggestNext env c p i s).2 = .error .fullyExplored ∧ deDup = true)
  | .run a fuel => ∀ e, (runOptimization env a fuel s).2 = .raised e → e = .fullyExplored ∧ deDup = true

theorem op_quiet {s : BOState} (hd : SoundData sp s) (op : Op) (hg : ValidContext sp (opContext op)) :
    Quiet env deDup s op ∧ SoundData sp (op.after env s) := by
  cases op with
  | suggest c p i =>
    have hd1 : SoundData sp { s with params := none, numAcq := 0, context := c } := ⟨hd.ne, hd.rows, hd.Y, hd.cost⟩
    obtain ⟨ps, fs, hu⟩ := updateModel_total h hb hr hd1
    have : suggestNext env c p i s = ({ s with params := ps, numAcq := 0, context := c, fits := s.fits ++ fs },
        stdSuggest sp ev envs deDup { s with params := ps, numAcq := 0, context := c, fits := s.fits ++ fs } p i) := by
      unfold suggestNext
      simp only [hu, hr.suggest]
    refine ⟨?_, ?_⟩
    · simp only [Quiet, this]
      rcases suggestions_exist h hb hs hvar hg
        (hr.calm { s with params := ps, numAcq := 0, context := c, fits := s.fits ++ fs }) hev
        (hfound.imp_right fun hf => hf { s with params := ps, numAcq := 0, context := c, fits := s.fits ++ fs }) s.X p i
        with hm | hm
      · exact .inl hm
      · exact .inr ⟨hm.2, hm.1⟩
    · show SoundData sp (suggestNext env c p i s).1
      rw [this]
      exact ⟨hd.ne, hd.rows, hd.Y, hd.cost⟩
  | run a fuel =>
    obtain ⟨Y, hY, hYl⟩ := hd.Y
    obtain ⟨h1, h2⟩ := C140_run_raises_nothing h hb hs hvar hev hr hfound a hg fuel s hd.ne hd.rows
      (fun Y' hY' => by rw [hY] at hY'; cases hY'; exact hYl) hd.cost
    refine ⟨?_, h1⟩
    intro e he
    rcases h2 with ⟨why, h2, -⟩ | h2 | h2
    · rw [h2] at he; cases he
    · rw [h2.1] at he; cases he; exact ⟨rfl, h2.2⟩
    · rw [h2] at he; cases he

/-- **C140** for every call in a history: a constructed `BayesianOptimization` object (without constraints, or with samples that are found; an initial design of
one or more points), then any sequence of suggestions and runs with valid contexts, whatever their outcomes. No call raises, except
(with de-duplication) for a fully explored domain. -/
theorem C140_object_raises_nothing (a : BayesArgs) (f : Nat → Vec → Py ℚ) (hf : a.f = some f) (haX : a.X = none)
    (o : DesignOracle) (ho : UnitOracle o) (clock : Nat → ℚ) (w : World) (b : BayesObj)
    (hcon : bayesConstruct a config cs o (sequentialEvaluate (signed a.maximize f) clock) = (w, .ok b))
    (hne : b.state.X ≠ []) (ops : List Op) (op : Op)
    (hops : ∀ o ∈ ops ++ [op], ValidContext sp (opContext o)) : Quiet env deDup (afterAll env ops b.state) op := by
  have hd : SoundData sp b.state := by
    obtain ⟨Y, hY, -, -, -, h3⟩ := C94_initial_data a f hf config cs o clock w b hcon
    obtain ⟨X, Y', hs', -, hst⟩ := bayesConstruct_ok hcon
    rw [h] at hs'
    injection hs' with hs'
    obtain ⟨g1, g2⟩ := h3 haX
    rw [← hs'] at g1
    refine ⟨hne, ?_, ⟨Y, hY, g2.1⟩, ?_⟩
    · rw [space_kinds_eq h]
      exact initialDesign_domain h hb hs ho g1
    · rw [hst]
      intro hk
      cases hk
  have key : ∀ (ops : List Op) (s : BOState), SoundData sp s → (∀ o ∈ ops, ValidContext sp (opContext o)) →
      SoundData sp (afterAll env ops s) := by
    intro ops
    induction ops with
    | nil => exact fun s hd _ => hd
    | cons o ops ih =>
      intro s hd ho
      exact ih _ (op_quiet h hb hs hvar hev hr hfound hd o (ho o (by simp))).2 fun o' ho' => ho o' (by simp [ho'])
  exact (op_quiet h hb hs hvar hev hr hfound (key ops _ hd fun o ho => hops o (by simp [ho])) op (hops op (by simp))).1

end

/-- an objective that raises outside of the domain 0, 1, 2, 3 -/
def exFussy (sp : Space) (ev : Evaluator) (deDup : Bool) : BOEnv :=
  { exBO sp with
    obj := some fun _ x => if x.headD 0 ∈ ([0, 1, 2, 3] : List ℚ) then .ok ((x.headD 0 - 2) ^ 2) else .error .objectiveError
    suggest := stdSuggest sp ev (fun _ => exEnv) deDup }

/-- The hypotheses of C140 are met by every evaluator with a batch size of two. -/
example {sp : Space} (h : designSpace (exGrid 4) none = .ok sp) (deDup : Bool) {ev : Evaluator}
    (hev : ev ∈ [.sequential, .random 2, .thompson 2, .localPenalization 2]) :
    CalmBO sp ev deDup (exFussy sp ev deDup) (fun _ => exEnv) ∧ GoodEvaluator deDup ev := by
  have hk : sp.kinds = [.discrete [0, 1, 2, 3]] := by
    rw [space_kinds_eq h]; decide +kernel
  refine ⟨?_, ?_⟩
  · exact {
      space := rfl
      suggest := rfl
      fit := fun _ _ _ => rfl
      params := fun _ => ⟨_, rfl⟩
      costFit := fun _ => rfl
      interval := by show (2 : Int) ≠ 0; decide
      calm := fun _ => {
        good := ⟨⟨by decide, by decide, by decide⟩, exAcq_good, exAcq_good, by decide, by decide⟩
        name := by simp [exEnv]
        logic := by simp [exEnv]
        f := fun _ => ⟨_, rfl⟩
        opt := fun _ _ _ => ⟨_, rfl⟩
        thompson := fun _ => ⟨_, rfl⟩
        batchOpt := fun _ _ _ => ⟨_, rfl⟩
        batchThompson := fun _ => ⟨_, rfl⟩
        lp := fun _ => exAcq_good
        lpOpt := fun _ _ _ _ => ⟨_, rfl⟩
        lpThompson := fun _ _ => ⟨_, rfl⟩
        fLP := fun _ _ => ⟨_, rfl⟩
        consts := ⟨_, rfl⟩ }
      samples := by
        intro s n hn
        subst hn
        simp only [List.mem_cons, reduceCtorEq, Evaluator.random.injEq, List.not_mem_nil, or_false, false_or] at hev
        subst hev
        decide
      obj := ⟨_, rfl, by
        intro k x hx
        rw [hk] at hx
        cases hx with
        | cons h1 h2 =>
          cases h2
          exact ⟨_, if_pos (by simpa [ValidObj] using h1)⟩⟩ }
  · simp only [List.mem_cons, List.not_mem_nil, or_false] at hev
    rcases hev with rfl | rfl | rfl | rfl <;> cases deDup <;> simp [GoodEvaluator]

/-- Thompson batches: three rounds without de-duplication (of repeated points); with it the domain is fully explored in the
third round. -/
example : ((designSpace (exGrid 4) none).map fun sp =>
      [false, true].map fun deDup =>
        let r := runOptimization (exFussy sp (.thompson 2) deDup) { maxIter := some (.fin 3), maxTime := none, eps := -1 } 10
          (boInit [[0]] none (.str "evaluation_time"))
        (r.2, r.1.X))
    = .ok [(.done .limit, [[0], [0], [0], [0], [0], [0], [0]]), (.raised .fullyExplored, [[0], [1], [2], [3]])] := by
  decide +kernel

end GPyOpt.Props
