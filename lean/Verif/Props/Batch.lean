import Verif.Lemmas.Batch
import Verif.Props.Suggest

/-!
# Properties C29–C33: batches
-/

namespace GPyOpt.Props

open GPyOpt Spec

/-- Random sources and options of both phases of a batch computation are as assumed. -/
structure GoodEnv (env : EvalEnv) : Prop where
  op : GoodOptions env.op
  acq : GoodAcq env.oracle.acq
  batch : GoodAcq env.oracle.batch
  nRandom : 0 < env.numSamplesRandom
  nThompson : 0 < env.numSamplesThompson

/-- A list of suggestions: points of the domain with the values of the context. -/
def GoodSuggestions (ks : List Kind) (sp : Space) (context : Option Context) (m : Mat) : Prop :=
  ∀ z ∈ m, ObjDomain ks z ∧ HasContext sp context z

theorem computeNext_cases {ev : Evaluator} {env : EvalEnv} {sp : Space} {context : Option Context}
    {deDup : Bool} {X : Mat} {pending ignored : Option Mat} {m : Mat}
    (hm : computeNext ev env sp context deDup X pending ignored = .ok m) :
    ∃ c b, contextManager sp context = .ok c ∧
      computeBatch ev env sp c (if deDup then some (dupMgr X pending ignored) else none) = .ok b ∧
      sp.zipInputs b = .ok m := by
  unfold computeNext at hm
  cases hc : contextManager sp context with
  | error e => simp [hc] at hm
  | ok c =>
    simp only [hc] at hm
    cases hbt : computeBatch ev env sp c
        (if deDup then some (dupMgr X pending ignored) else none) with
    | error e => simp [hbt] at hm
    | ok b => simp only [hbt] at hm; exact ⟨c, b, rfl, hbt, hm⟩

theorem not_inDup_iff {dm : DupMgr} {z : Vec} : ¬ InDup (some dm) z ↔ z ∉ dm.points := by
  simp [InDup]

/-! ## C29: random batches with de-duplication -/

/-- C29 (partial: batch sizes of at least two; all-zero matrices of pending or ignored points are
not avoided). With de-duplication the random batch consists of at least one and at most `n`
pairwise distinct points of the domain that carry the context and are none of the evaluated,
pending and ignored points. The optimum of the acquisition is the first of them, unless all its
coordinates are zero. The batch is smaller than `n` only if it contains all anchor points. -/
theorem C29_random_batch_partial {config : List Desc} {cs : Option (List ConstrDict)} {sp : Space}
    (h : designSpace config cs = .ok sp) (hb : sp.hasBandit = false)
    (hs : ∀ k ∈ kindsOf config, Samplable k) (hvar : kindsOf config ≠ [])
    (context : Option Context) (hg : ValidContext sp context) (env : EvalEnv) (henv : GoodEnv env)
    (n : Nat) (hn : 2 ≤ n) (X : Mat) (pending ignored : Option Mat) (m : Mat)
    (hm : computeNext (.random n) env sp context true X pending ignored = .ok m) :
    m ≠ [] ∧ m.length ≤ n ∧ m.Nodup ∧ GoodSuggestions (kindsOf config) sp context m ∧
    (∀ z ∈ m, Fresh X pending ignored z) ∧
    ∃ c x0 v0 as, contextManager sp context = .ok c ∧
      acqOptimize sp c (some (dupMgr X pending ignored)) env.op env.oracle.acq env.f = .ok (x0, v0) ∧
      ((∃ w ∈ x0, w ≠ 0) → ∃ z0 rest, m = z0 :: rest ∧ x0 = encodeRow (kindsOf config) z0) ∧
      randomBatchAnchors sp c (some (dupMgr X pending ignored)) env.numSamplesRandom n
        env.oracle.batch = .ok as ∧
      (m.length < n → ∀ a ∈ as, ∃ z ∈ m, a = encodeRow (kindsOf config) z) := by
  rw [← space_kinds_eq h] at hs hvar ⊢
  obtain ⟨c, b, hc, hbt, hzip⟩ := computeNext_cases hm
  simp only [if_true] at hbt
  generalize hdm : dupMgr X pending ignored = dm at *
  simp only [computeBatch, randomBatch, dedupBatch] at hbt
  cases has : randomBatchAnchors sp c (some dm) env.numSamplesRandom n env.oracle.batch with
  | error e => simp [has] at hbt
  | ok as =>
    simp only [has] at hbt
    obtain ⟨hA, hAne⟩ := anchorPoints_sound h hb hs hg hc henv.batch.unit (by simp) henv.nRandom
      randomScores_shape henv.batch.argsort has
    have hAne := hAne (by omega)
    cases hx : acqOptimize sp c (some dm) env.op env.oracle.acq env.f with
    | error e => simp only [hx, Except.map] at hbt; simp at hbt
    | ok r =>
      obtain ⟨x0, v0⟩ := r
      simp only [hx, Except.map] at hbt
      obtain ⟨z0, ⟨hx0, hz0, hc0⟩, hd0, -⟩ := acqOptimize_sound h hb hs hvar hg hc henv.op henv.acq hx
      simp only at hx0
      -- the common part, for a batch that starts with `start`
      have main : ∀ (Z0 : Mat) (seen : List Vec), (∀ z ∈ Z0, z = z0) → Z0.length ≤ 1 →
          (seen = Z0 ++ dm.points) →
          (match batchLoop sp (fun _ a => .ok a) n 0 as (Z0.map (encodeRow sp.kinds)) seen with
            | .error e => (.error e : Py Mat)
            | .ok b => vstack b) = .ok b →
          ∃ Z : Mat, m = Z0 ++ Z ∧ m ≠ [] ∧ m.length ≤ n ∧ m.Nodup ∧
            GoodSuggestions sp.kinds sp context m ∧ (∀ z ∈ m, ¬ InDup (some dm) z) ∧
            (m.length < n → ∀ a ∈ as, ∃ z ∈ m, a = encodeRow sp.kinds z) := by
        intro Z0 seen hZ0 hl0 hseen hbl
        cases hloop : batchLoop sp (fun _ a => .ok a) n 0 as (Z0.map (encodeRow sp.kinds)) seen with
        | error e => simp [hloop] at hbl
        | ok b' =>
          simp only [hloop, vstack] at hbl
          split_ifs at hbl with hbe
          simp only [Except.ok.injEq] at hbl
          subst hbl
          obtain ⟨Z, e1, e2, e3, e4, e5⟩ := batchLoop_spec h hb (context := context)
            (optAnchor := fun _ a => .ok a) (fun z => ¬ InDup (some dm) z)
            (fun k a z x ha hP hax => by
              simp only [Except.ok.injEq] at hax
              subst hax
              exact ⟨z, ha, hP⟩) n as 0 _ _ _ hA hloop
          rw [← List.map_append] at e1
          have hgood : GoodSuggestions sp.kinds sp context (Z0 ++ Z) := by
            intro z hz
            rcases List.mem_append.1 hz with hz | hz
            · rw [hZ0 z hz]; exact ⟨hz0, hc0⟩
            · exact ⟨(e2 z hz).1, (e2 z hz).2.1⟩
          have hnemp : Z0 ++ Z ≠ [] := by
            intro hcon; rw [hcon] at e1; exact hbe (by simpa using e1)
          have hmZ : m = Z0 ++ Z := by
            rw [e1, zipInputs_encode_all h hb hnemp (fun z hz => (hgood z hz).1)] at hzip
            simpa using hzip.symm
          have hlen : b'.length = m.length := by rw [e1, hmZ, List.length_map]
          refine ⟨Z, hmZ, hmZ ▸ hnemp, ?_, ?_, hmZ ▸ hgood, ?_, ?_⟩
          · rw [← hlen]; exact e4 (by rw [List.length_map]; omega)
          · rw [hmZ, List.nodup_append]
            refine ⟨?_, e3, ?_⟩
            · rcases Z0 with _ | ⟨y, _ | ⟨y', Z0⟩⟩
              · simp
              · simp
              · simp at hl0
            · intro z hz z' hz' heq
              subst heq
              exact (e2 z hz').2.2.2 (by rw [hseen]; simp [hz])
          · intro z hz
            rw [hmZ] at hz
            rcases List.mem_append.1 hz with hz | hz
            · rw [hZ0 z hz]; exact hd0
            · exact (e2 z hz).2.2.1
          · intro hlt a ha
            rcases e5 with e5 | e5
            · omega
            · obtain ⟨i, hi⟩ := List.getElem?_of_mem ha
              obtain ⟨z, g1, g2, g3, g4⟩ := e5 i a hi
              simp only [Except.ok.injEq] at g1
              refine ⟨z, ?_, g1⟩
              rw [hmZ]
              rcases g4 with g4 | g4
              · rw [hseen] at g4
                rcases List.mem_append.1 g4 with g4 | g4
                · exact List.mem_append.2 (.inl g4)
                · exact absurd g4 (not_inDup_iff.1 g3)
              · exact List.mem_append.2 (.inr g4)
      have hfresh : ∀ z, ¬ InDup (some dm) z → Fresh X pending ignored z :=
        fun z hz => fresh_of_not_inDup (hdm ▸ hz)
      by_cases hany : npAny [x0] = true
      · simp only [hany, if_true] at hbt
        rw [hx0, zipTuple_encode h hb hz0] at hbt
        simp only at hbt
        obtain ⟨Z, g1, g2, g3, g4, g5, g6, g7⟩ := main [z0] (z0 :: dm.points) (by simp) (by simp) rfl hbt
        exact ⟨g2, g3, g4, g5, fun z hz => hfresh z (g6 z hz), c, x0, v0, as, hc, hx,
          fun _ => ⟨z0, Z, g1, hx0⟩, has, g7⟩
      · simp only [hany] at hbt
        obtain ⟨Z, g1, g2, g3, g4, g5, g6, g7⟩ := main [] dm.points (by simp) (by simp) rfl hbt
        refine ⟨g2, g3, g4, g5, fun z hz => hfresh z (g6 z hz), c, x0, v0, as, hc, hx, ?_, has, g7⟩
        rintro ⟨w, hw, hw0⟩
        exact absurd (by simp only [npAny]; simp; exact ⟨w, hw, hw0⟩) hany

/-- C29 (negation of the full property). A random batch evaluator with batch size 1 returns more
than one point with de-duplication. (`BayesianOptimization` never creates it: C68.) -/
theorem C29_batch_size_one_counterexample :
    ((designSpace exConfig none).bind fun sp =>
      (computeNext (.random 1) exEnv sp none true [] none none).map List.length) = .ok 6 := by
  decide +kernel

/-- a discrete variable, and the acquisition `-|x|` -/
def exDiscrete : List Desc :=
  [{ name := some "d", type := some "discrete", domain := some (.flat [0, -3, -4]) }]

/-- the negated acquisition -/
def exAbs : Vec → Py ℚ := fun x => .ok (x.map abs).sum

/-- C29. The optimum of the acquisition is dropped from the batch if all its coordinates are zero:
here the optimum is 0 and the batch consists of -4 and -3. -/
theorem C29_zero_optimum_counterexample :
    ((designSpace exDiscrete none).bind fun sp => (contextManager sp none).bind fun c =>
      acqOptimize sp c (some ⟨[]⟩) exEnv.op exEnv.oracle.acq exAbs) = .ok ([0], 0) ∧
    ((designSpace exDiscrete none).bind fun sp =>
      computeNext (.random 2) { exEnv with f := exAbs } sp none true [] none none)
        = .ok [[-4], [-3]] := by
  constructor <;> decide +kernel

/-- a random batch of three with context and de-duplication -/
example : ((designSpace exConfig none).bind fun sp =>
    computeNext (.random 3) exEnv sp exContext true [[-1, 1/2, 0, 1]] none (some [[-1, 1/2, 3, 1]]))
    = .ok [[-3/5, 1/2, 0, 1], [-5/7, 1/2, 3, 1], [-2/3, 1/2, 7, 1]] := by decide +kernel

example : GoodEnv exEnv := ⟨⟨by decide, by decide, by decide⟩, exAcq_good, exAcq_good, by decide, by decide⟩

/-! ## C30: Thompson batches with de-duplication -/

/-- C30 (partial: all-zero matrices of pending or ignored points are not avoided). With
de-duplication the Thompson batch consists of at least one and at most `n` pairwise distinct points
of the domain that carry the context and are none of the evaluated, pending and ignored points. -/
theorem C30_thompson_batch_partial {config : List Desc} {cs : Option (List ConstrDict)} {sp : Space}
    (h : designSpace config cs = .ok sp) (hb : sp.hasBandit = false)
    (hs : ∀ k ∈ kindsOf config, Samplable k) (hvar : kindsOf config ≠ [])
    (context : Option Context) (hg : ValidContext sp context) (env : EvalEnv) (henv : GoodEnv env)
    (n : Nat) (hn : 1 ≤ n) (X : Mat) (pending ignored : Option Mat) (m : Mat)
    (hm : computeNext (.thompson n) env sp context true X pending ignored = .ok m) :
    m ≠ [] ∧ m.length ≤ n ∧ m.Nodup ∧ GoodSuggestions (kindsOf config) sp context m ∧
    (∀ z ∈ m, Fresh X pending ignored z) := by
  rw [← space_kinds_eq h] at hs hvar ⊢
  obtain ⟨c, b, hc, hbt, hzip⟩ := computeNext_cases hm
  simp only [if_true] at hbt
  generalize hdm : dupMgr X pending ignored = dm at *
  simp only [computeBatch, thompsonBatch, dedupBatch] at hbt
  cases has : thompsonBatchAnchors sp c (some dm) env.numSamplesThompson n env.oracle.batch with
  | error e => simp [has] at hbt
  | ok as =>
    simp only [has] at hbt
    obtain ⟨hA, hAne⟩ := anchorPoints_sound h hb hs hg hc henv.batch.unit (by simp) henv.nThompson
      henv.batch.thompson henv.batch.argsort has
    have hne := fun k hk => samplable_nonEmpty (hs k hk)
    cases hloop : batchLoop sp (thompsonOptimize sp c (some dm) env.oracle.batch env.f) n 0 as []
        dm.points with
    | error e => simp [hloop] at hbt
    | ok b' =>
      simp only [hloop, vstack] at hbt
      split_ifs at hbt with hbe
      simp only [Except.ok.injEq] at hbt
      subst hbt
      obtain ⟨Z, e1, e2, e3, e4, -⟩ := batchLoop_spec h hb (context := context)
        (fun z => ¬ InDup (some dm) z)
        (fun k a z x ha hP hax =>
          thompsonOptimize_sound h hb hne hvar hg hc henv.batch.opt ha hP hax) n as 0 _ _ _ hA hloop
      rw [List.nil_append] at e1
      have hnemp : Z ≠ [] := by rintro rfl; exact hbe (by simpa using e1)
      have hmZ : m = Z := by
        rw [e1, zipInputs_encode_all h hb hnemp (fun z hz => (e2 z hz).1)] at hzip
        simpa using hzip.symm
      subst hmZ
      refine ⟨hnemp, ?_, e3, fun z hz => ⟨(e2 z hz).1, (e2 z hz).2.1⟩,
        fun z hz => fresh_of_not_inDup (hdm ▸ (e2 z hz).2.2.1)⟩
      have := e4 (by simp; omega)
      rwa [e1, List.length_map] at this

/-- C30. The Thompson batch is computed unless the domain is reported as fully explored (spaces
without constraints, or constraints under which the samples are found; components that do not raise). -/
theorem C30_thompson_batch_exists {config : List Desc} {cs : Option (List ConstrDict)} {sp : Space}
    (h : designSpace config cs = .ok sp) (hb : sp.hasBandit = false)
    (hs : ∀ k ∈ kindsOf config, Samplable k) (hvar : kindsOf config ≠ [])
    (context : Option Context) (hg : ValidContext sp context) (env : EvalEnv) (henv : GoodEnv env)
    (hf : ∀ x, ∃ v, env.f x = .ok v) (hopt : ∀ k g x, ∃ y, env.oracle.batch.opt k g x = .ok y)
    (hth : ∀ X, ∃ s, env.oracle.batch.thompson X = .ok s)
    (hfound : cs = none ∨ ∀ c, contextManager sp context = .ok c →
      SamplesFound sp c "random" env.numSamplesThompson env.oracle.batch.design)
    (n : Nat) (hn : 1 ≤ n) (X : Mat) (pending ignored : Option Mat) :
    computeNext (.thompson n) env sp context true X pending ignored = .error .fullyExplored ∨
      ∃ m, computeNext (.thompson n) env sp context true X pending ignored = .ok m := by
  obtain ⟨c, -, hc, -⟩ := C23_context_partition h hb (fun k hk => samplable_nonEmpty (hs k hk))
    context (validContext_good hg)
  rw [← space_kinds_eq h] at hs hvar
  have hne := fun k hk => samplable_nonEmpty (hs k hk)
  unfold computeNext
  simp only [hc, if_true, computeBatch, thompsonBatch, dedupBatch]
  generalize dupMgr X pending ignored = dm
  rcases anchorPoints_total h hb hs hg hc henv.batch.unit (t := "random") (by simp) henv.nThompson
    true (some dm) (5 * n) henv.batch.thompson hth henv.batch.argsort (hfound.imp_right fun h => h c hc) with
    ⟨-, has⟩ | ⟨as, has⟩
  · left; simp only [thompsonBatchAnchors, Option.isSome_some, has]
  · right
    simp only [thompsonBatchAnchors, Option.isSome_some, has]
    obtain ⟨hA, hAne⟩ := anchorPoints_sound h hb hs hg hc henv.batch.unit (by simp) henv.nThompson
      henv.batch.thompson henv.batch.argsort has
    have hAne := hAne (by omega)
    have hO : ∀ k a z0, GoodRow sp.kinds sp context a z0 → ¬ InDup (some dm) z0 →
        ∃ z, thompsonOptimize sp c (some dm) env.oracle.batch env.f k a = .ok (encodeRow sp.kinds z) ∧
          ObjDomain sp.kinds z ∧ HasContext sp context z ∧ ¬ InDup (some dm) z := by
      intro k a z0 ha hd
      have : ∃ x, thompsonOptimize sp c (some dm) env.oracle.batch env.f k a = .ok x := by
        have ha' := ha
        rw [space_kinds_eq h] at ha'
        obtain ⟨r, hr⟩ := (((C26_apply_optimizer h hb (space_kinds_eq h ▸ hne)
          (space_kinds_eq h ▸ hvar) context hg c hc (some dm) _ (henv.batch.opt k) env.f a z0 ha').2
          hd).2 (hopt k) hf)
        obtain ⟨z, ⟨hz1, hz2, -⟩, -⟩ := (((C26_apply_optimizer h hb (space_kinds_eq h ▸ hne)
          (space_kinds_eq h ▸ hvar) context hg c hc (some dm) _ (henv.batch.opt k) env.f a z0 ha').2
          hd).1 r hr)
        have hround : sp.roundOptimum2d [r.1] = .ok [r.1] := by
          have := C04_round_fixed h hb (space_kinds_eq h ▸ hne) (space_kinds_eq h ▸ hvar)
            r.1 (hz1 ▸ encodeRow_modelDomain hz2)
          simpa [Space.roundOptimum2d] using this
        exact ⟨r.1, by simp only [thompsonOptimize, hr, hround]⟩
      obtain ⟨x, hx⟩ := this
      obtain ⟨z, ⟨rfl, hz, hcz⟩, hdz⟩ :=
        thompsonOptimize_sound h hb hne hvar hg hc henv.batch.opt ha hd hx
      exact ⟨z, hx, hz, hcz, hdz⟩
    have hloop : ∀ (as : Mat) (k : Nat) (batch : Mat) (seen : List Vec),
        (∀ a ∈ as, ∃ z, GoodRow sp.kinds sp context a z ∧ ¬ InDup (some dm) z) →
        ∃ b, batchLoop sp (thompsonOptimize sp c (some dm) env.oracle.batch env.f) n k as batch seen
          = .ok b := by
      intro as
      induction as with
      | nil => intro k batch seen _; exact ⟨_, rfl⟩
      | cons a as ih =>
        intro k batch seen hA
        obtain ⟨za, ⟨hae, hzaD, hca⟩, hPa⟩ := hA a (by simp)
        obtain ⟨z, hz1, hz2, -⟩ := hO k a za ⟨hae, hzaD, hca⟩ hPa
        have ih' := fun k batch seen => ih k batch seen (fun a' ha' => hA a' (by simp [ha']))
        unfold batchLoop
        simp only [hz1, zipTuple_encode h hb hz2]
        rw [hae]
        simp only [zipTuple_encode h hb hzaD]
        split_ifs <;> first | exact ⟨_, rfl⟩ | exact ih' _ _ _
    obtain ⟨b, hbl⟩ := hloop as 0 [] dm.points hA
    obtain ⟨Z, e1, e2, e3, e4, e5⟩ := batchLoop_spec h hb (context := context)
        (fun z => ¬ InDup (some dm) z)
        (fun k a z x ha hP hax =>
          thompsonOptimize_sound h hb hne hvar hg hc henv.batch.opt ha hP hax) n as 0 _ _ _ hA hbl
    rw [List.nil_append] at e1
    have hZ : Z ≠ [] := by
      rintro rfl
      rcases e5 with e5 | e5
      · rw [e1] at e5; simp at e5; omega
      · obtain ⟨a, as', rfl⟩ := List.exists_cons_of_ne_nil hAne
        obtain ⟨z, -, -, g3, g4⟩ := e5 0 a rfl
        rcases g4 with g4 | g4
        · exact not_inDup_iff.1 g3 g4
        · simp at g4
    have hbne : b ≠ [] := by rw [e1]; simpa using hZ
    refine ⟨Z, ?_⟩
    simp only [hbl, vstack, hbne, if_false]
    rw [e1]
    exact zipInputs_encode_all h hb hZ fun z hz => (e2 z hz).1

/-- a Thompson batch of three with context and de-duplication -/
example : ((designSpace exConfig none).bind fun sp =>
    computeNext (.thompson 3) exEnv sp exContext true [[-1, 1/2, 0, 1]] none (some [[-1, 1/2, 3, 1]]))
    = .ok [[-5/7, 1/2, 3, 1], [-1, 1/2, 7, 1], [-3/5, 1/2, 0, 1]] := by decide +kernel

/-- C30 (negation of the full property). A pending location whose coordinates are all zero is in the batch. -/
theorem C30_pending_zero_counterexample :
    ((designSpace exDiscrete none).bind fun sp =>
      computeNext (.thompson 3) exEnv sp none true [[-3]] (some [[0]]) none) = .ok [[-4], [0]] := by
  decide +kernel

/-! ## C31: batches without de-duplication -/

/-- C31. Without de-duplication the random batch has exactly `n` points of the domain (if at least
`n - 1` samples are drawn); the first is the optimum of the acquisition. -/
theorem C31_random_batch_size {config : List Desc} {cs : Option (List ConstrDict)} {sp : Space}
    (h : designSpace config cs = .ok sp) (hb : sp.hasBandit = false)
    (hs : ∀ k ∈ kindsOf config, Samplable k) (hvar : kindsOf config ≠ [])
    (context : Option Context) (hg : ValidContext sp context) (env : EvalEnv) (henv : GoodEnv env)
    (n : Nat) (hn : 1 ≤ n) (hns : n - 1 ≤ env.numSamplesRandom) (X : Mat)
    (pending ignored : Option Mat) (m : Mat)
    (hm : computeNext (.random n) env sp context false X pending ignored = .ok m) :
    m.length = n ∧ GoodSuggestions (kindsOf config) sp context m ∧
    ∃ c x0 v0 z0 rest, contextManager sp context = .ok c ∧
      acqOptimize sp c none env.op env.oracle.acq env.f = .ok (x0, v0) ∧
      x0 = encodeRow (kindsOf config) z0 ∧ m = z0 :: rest := by
  rw [← space_kinds_eq h] at hs hvar ⊢
  obtain ⟨c, b, hc, hbt, hzip⟩ := computeNext_cases hm
  simp only [Bool.false_eq_true, if_false, computeBatch, randomBatch] at hbt
  cases hx : acqOptimize sp c none env.op env.oracle.acq env.f with
  | error e => simp [hx] at hbt
  | ok r =>
    obtain ⟨x0, v0⟩ := r
    simp only [hx] at hbt
    obtain ⟨z0, ⟨hx0, hz0, hc0⟩, hd0, -⟩ := acqOptimize_sound h hb hs hvar hg hc henv.op henv.acq hx
    simp only at hx0
    subst hx0
    cases has : randomBatchAnchors sp c none env.numSamplesRandom n env.oracle.batch with
    | error e => simp [has] at hbt
    | ok as =>
      simp only [has, Except.ok.injEq] at hbt
      subst hbt
      obtain ⟨hA, -⟩ := anchorPoints_sound h hb hs hg hc henv.batch.unit (by simp) henv.nRandom
        randomScores_shape henv.batch.argsort has
      have hl := anchorPoints_length h hb hs hg hc henv.batch.unit (by simp) henv.nRandom
        randomScores_shape henv.batch.argsort has
      obtain ⟨Z, hZ, hZd⟩ := exists_rows hA
      subst hZ
      rw [← List.map_take, ← List.map_cons] at hzip
      have hgood : GoodSuggestions sp.kinds sp context (z0 :: Z.take (n - 1)) := by
        intro z hz
        rcases List.mem_cons.1 hz with rfl | hz
        · exact ⟨hz0, hc0⟩
        · exact hZd z (List.mem_of_mem_take hz)
      rw [zipInputs_encode_all h hb (by simp) (fun z hz => (hgood z hz).1)] at hzip
      simp only [Except.ok.injEq] at hzip
      subst hzip
      refine ⟨?_, hgood, c, _, v0, z0, _, hc, hx, rfl, rfl⟩
      rw [List.length_map] at hl
      simp only [List.length_cons, List.length_take]
      omega

/-- C31. Without de-duplication the Thompson batch has `min n samples` points of the domain. -/
theorem C31_thompson_batch_size {config : List Desc} {cs : Option (List ConstrDict)} {sp : Space}
    (h : designSpace config cs = .ok sp) (hb : sp.hasBandit = false)
    (hs : ∀ k ∈ kindsOf config, Samplable k) (hvar : kindsOf config ≠ [])
    (context : Option Context) (hg : ValidContext sp context) (env : EvalEnv) (henv : GoodEnv env)
    (n : Nat) (X : Mat) (pending ignored : Option Mat) (m : Mat)
    (hm : computeNext (.thompson n) env sp context false X pending ignored = .ok m) :
    m.length = min n env.numSamplesThompson ∧ GoodSuggestions (kindsOf config) sp context m := by
  rw [← space_kinds_eq h] at hs hvar ⊢
  have hne := fun k hk => samplable_nonEmpty (hs k hk)
  obtain ⟨c, b, hc, hbt, hzip⟩ := computeNext_cases hm
  simp only [Bool.false_eq_true, if_false, computeBatch, thompsonBatch] at hbt
  cases has : thompsonBatchAnchors sp c none env.numSamplesThompson n env.oracle.batch with
  | error e => simp [has] at hbt
  | ok as =>
    simp only [has] at hbt
    cases hp : mapE (fun ka : Vec × Nat => thompsonOptimize sp c none env.oracle.batch env.f ka.2 ka.1)
        (as.zipIdx.take n) with
    | error e => simp [hp] at hbt
    | ok pts =>
      simp only [hp, vstack] at hbt
      split_ifs at hbt with hpe
      simp only [Except.ok.injEq] at hbt
      subst hbt
      obtain ⟨hA, -⟩ := anchorPoints_sound h hb hs hg hc henv.batch.unit (by simp) henv.nThompson
        henv.batch.thompson henv.batch.argsort has
      have hl := anchorPoints_length h hb hs hg hc henv.batch.unit (by simp) henv.nThompson
        henv.batch.thompson henv.batch.argsort has
      have hgood : ∀ x ∈ pts, ∃ z, GoodRow sp.kinds sp context x z ∧ ¬ InDup none z := by
        intro x hx
        obtain ⟨⟨a, k⟩, hak, hap⟩ := mapE_ok_mem hp hx
        have hak' := List.mem_zipIdx (List.mem_of_mem_take hak)
        obtain ⟨z0, hz0, hd0⟩ := hA a (by rw [hak'.2.2]; exact List.getElem_mem _)
        exact thompsonOptimize_sound h hb hne hvar hg hc henv.batch.opt hz0 hd0 hap
      obtain ⟨Z, hZ, hZd⟩ := exists_rows hgood
      subst hZ
      have hZne : Z ≠ [] := by rintro rfl; exact hpe rfl
      rw [zipInputs_encode_all h hb hZne (fun z hz => (hZd z hz).1)] at hzip
      simp only [Except.ok.injEq] at hzip
      subst hzip
      refine ⟨?_, hZd⟩
      have := mapE_length hp
      rw [List.length_map, List.length_take, List.length_zipIdx, hl] at this
      rw [this]; omega

example : ((designSpace exConfig none).bind fun sp =>
    computeNext (.random 3) exEnv sp exContext false [] none none)
    = .ok [[-1, 1/2, 0, 1], [0, 1/2, 0, 1], [-1/3, 1/2, 7, 1]] ∧
  ((designSpace exConfig none).bind fun sp =>
    (computeNext (.thompson 3) exEnv sp exContext false [] none none).map List.length) = .ok 3 := by
  constructor <;> decide +kernel

/-! ## C32: local penalization -/

theorem lpLoop_spec (optimize : Nat → LPState → Py Vec) (c : ℚ × ℚ) (todo : Nat) :
    ∀ (k : Nat) (batch : Mat) (s : LPState) (tr : List LPState) (b : Mat) (s' : LPState)
      (tr' : List LPState), lpLoop optimize c todo k batch s tr = .ok (b, s', tr') →
    k = batch.length → tr.length = batch.length →
    b.length = batch.length + todo ∧ tr'.length = b.length ∧ batch <+: b ∧ tr <+: tr' ∧
    ∀ j, batch.length ≤ j → j < b.length →
      tr'[j]? = some ⟨some (b.take j), some c⟩ ∧
      ∃ x, b[j]? = some x ∧ optimize j ⟨some (b.take j), some c⟩ = .ok x := by
  induction todo with
  | zero =>
    intro k batch s tr b s' tr' h hk htr
    simp only [lpLoop, Except.ok.injEq, Prod.mk.injEq] at h
    obtain ⟨rfl, rfl, rfl⟩ := h
    exact ⟨rfl, htr, List.prefix_rfl, List.prefix_rfl, fun j h1 h2 => by omega⟩
  | succ todo ih =>
    intro k batch s tr b s' tr' h hk htr
    simp only [lpLoop] at h
    cases ho : optimize k (s.update (some batch) (some c)) with
    | error e => simp [ho] at h
    | ok x =>
      simp only [ho] at h
      obtain ⟨e1, e2, e3, e4, e5⟩ := ih _ _ _ _ _ _ _ h (by simp [hk]) (by simp [htr])
      have htake : b.take batch.length = batch := by
        obtain ⟨r, hr⟩ := e3
        rw [← hr]; simp
      refine ⟨by simp at e1; omega, e2, (List.prefix_append _ _).trans e3,
        (List.prefix_append _ _).trans e4, ?_⟩
      intro j h1 h2
      by_cases hj : j = batch.length
      · subst hj
        rw [htake]
        constructor
        · obtain ⟨r, hr⟩ := e4
          rw [← hr, ← htr]; simp [LPState.update]
        · refine ⟨x, ?_, ?_⟩
          · obtain ⟨r, hr⟩ := e3
            rw [← hr]; simp
          · rw [← hk]; exact ho
      · exact e5 j (by simp; omega) h2

/-- C32. The local penalization batch has `max 1 n` points. `tr` are the states of the acquisition
during the optimizations: the first point is optimized without penalizers, the `j`-th one with
penalizers around exactly the points before it, and the acquisition is left without penalizers. -/
theorem C32_local_penalization (optimize : Nat → LPState → Py Vec) (consts : Py (ℚ × ℚ)) (n : Nat)
    (s s' : LPState) (b : Mat) (tr : List LPState)
    (h : lpBatch optimize consts n s = .ok (b, s', tr)) :
    b.length = max 1 n ∧ tr.length = b.length ∧ s'.penalizers = none ∧
    (∀ j (_ : j < b.length), ∃ st x, tr[j]? = some st ∧ b[j]? = some x ∧ optimize j st = .ok x ∧
      st.penalizers = (if j = 0 then none else some (b.take j)) ∧
      (j ≠ 0 → ∃ c, consts = .ok c ∧ st.consts = some c)) := by
  unfold lpBatch at h
  simp only at h
  cases ho : optimize 0 (s.update none none) with
  | error e => simp [ho] at h
  | ok x =>
    simp only [ho] at h
    split_ifs at h with hn
    · cases hc : consts with
      | error e => simp [hc] at h
      | ok c =>
        simp only [hc] at h
        cases hl : lpLoop optimize c (n - 1) 1 [x] (s.update none none) [s.update none none] with
        | error e => simp [hl] at h
        | ok r =>
          obtain ⟨b', s1, tr'⟩ := r
          simp only [hl, Except.ok.injEq, Prod.mk.injEq] at h
          obtain ⟨rfl, rfl, rfl⟩ := h
          obtain ⟨e1, e2, e3, e4, e5⟩ := lpLoop_spec optimize c _ _ _ _ _ _ _ _ hl rfl rfl
          refine ⟨by simp at e1; omega, e2, rfl, ?_⟩
          intro j hj
          by_cases hj0 : j = 0
          · subst hj0
            refine ⟨s.update none none, x, ?_, ?_, ho, rfl, by simp⟩
            · obtain ⟨r, hr⟩ := e4; rw [← hr]; simp
            · obtain ⟨r, hr⟩ := e3; rw [← hr]; simp
          · obtain ⟨g1, y, g2, g3⟩ := e5 j (by simp; omega) hj
            exact ⟨_, y, g1, g2, g3, by simp [hj0], fun _ => ⟨c, rfl, rfl⟩⟩
    · simp only [Except.ok.injEq, Prod.mk.injEq] at h
      obtain ⟨rfl, rfl, rfl⟩ := h
      refine ⟨by simp; omega, rfl, rfl, ?_⟩
      intro j hj
      simp only [List.length_singleton, Nat.lt_one_iff] at hj
      subst hj
      exact ⟨_, x, rfl, rfl, ho, rfl, by simp⟩

/-- C32. It succeeds whenever the optimizations and the constants do. -/
theorem C32_local_penalization_total (optimize : Nat → LPState → Py Vec) (consts : Py (ℚ × ℚ)) (n : Nat)
    (s : LPState) (ho : ∀ k st, ∃ x, optimize k st = .ok x) (hc : ∃ c, consts = .ok c) :
    ∃ r, lpBatch optimize consts n s = .ok r := by
  obtain ⟨c, rfl⟩ := hc
  have hl : ∀ todo k batch s tr, ∃ r, lpLoop optimize c todo k batch s tr = .ok r := by
    intro todo
    induction todo with
    | zero => intro k batch s tr; exact ⟨_, rfl⟩
    | succ todo ih =>
      intro k batch s tr
      obtain ⟨x, hx⟩ := ho k (s.update (some batch) (some c))
      simp only [lpLoop, hx]
      exact ih _ _ _ _
  obtain ⟨x, hx⟩ := ho 0 (s.update none none)
  obtain ⟨r, hr⟩ := hl (n - 1) 1 [x] (s.update none none) [s.update none none]
  simp only [lpBatch, hx]
  split_ifs
  · simp [hr]
  · exact ⟨_, rfl⟩

example : (lpBatch (fun k _ => .ok [(k : ℚ)]) (.ok (2, 3)) 3 ⟨some [[9]], none⟩)
    = .ok ([[0], [1], [2]], ⟨none, some (2, 3)⟩,
        [⟨none, none⟩, ⟨some [[0]], some (2, 3)⟩, ⟨some [[0], [1]], some (2, 3)⟩]) := by decide +kernel

/-- C32. The suggested points of the local penalization evaluator are `max 1 n` points of the
domain that carry the context. -/
theorem C32_local_penalization_domain {config : List Desc} {cs : Option (List ConstrDict)} {sp : Space}
    (h : designSpace config cs = .ok sp) (hb : sp.hasBandit = false)
    (hs : ∀ k ∈ kindsOf config, Samplable k) (hvar : kindsOf config ≠ [])
    (context : Option Context) (hg : ValidContext sp context) (env : EvalEnv) (henv : GoodEnv env)
    (hacq : ∀ k, GoodAcq (env.acqLP k)) (n : Nat) (deDup : Bool) (X : Mat)
    (pending ignored : Option Mat) (m : Mat)
    (hm : computeNext (.localPenalization n) env sp context deDup X pending ignored = .ok m) :
    m.length = max 1 n ∧ GoodSuggestions (kindsOf config) sp context m := by
  rw [← space_kinds_eq h] at hs hvar ⊢
  obtain ⟨c, b, hc, hbt, hzip⟩ := computeNext_cases hm
  simp only [computeBatch] at hbt
  generalize hopt : (fun k s => Except.map Prod.fst
    (acqOptimize sp c none env.op (env.acqLP k) (env.fLP s))) = optimize at hbt
  cases hr : lpBatch optimize env.lpConsts n env.lpState with
  | error e => simp only [hr, Except.map] at hbt; cases hbt
  | ok r =>
    obtain ⟨b', s', tr⟩ := r
    simp only [hr, Except.map, Except.ok.injEq] at hbt
    subst hbt
    obtain ⟨e1, e2, e3, e4⟩ := C32_local_penalization optimize _ n _ _ _ _ hr
    have hgood : ∀ x ∈ b', ∃ z, GoodRow sp.kinds sp context x z ∧ ¬ InDup none z := by
      intro x hx
      obtain ⟨j, hj, hjx⟩ := List.getElem_of_mem hx
      obtain ⟨st, y, -, g2, g3, -⟩ := e4 j hj
      have hxy : y = x := by
        rw [List.getElem?_eq_getElem hj, hjx] at g2; simpa using g2.symm
      subst hxy
      rw [← hopt] at g3
      cases hq : acqOptimize sp c none env.op (env.acqLP j) (env.fLP st) with
      | error e => simp only [hq, Except.map] at g3; cases g3
      | ok q =>
        simp only [hq, Except.map, Except.ok.injEq] at g3
        subst g3
        obtain ⟨z, g1, g2, -⟩ := acqOptimize_sound h hb hs hvar hg hc henv.op (hacq j) hq
        exact ⟨z, g1, g2⟩
    obtain ⟨Z, hZ, hZd⟩ := exists_rows hgood
    subst hZ
    have hZne : Z ≠ [] := by rintro rfl; simp at e1; omega
    rw [zipInputs_encode_all h hb hZne (fun z hz => (hZd z hz).1)] at hzip
    simp only [Except.ok.injEq] at hzip
    subst hzip
    exact ⟨by rw [← e1, List.length_map], hZd⟩

/-! ## C33: de-duplication and the choice of the evaluator -/

/-- C33 (partial: not for local penalization; batch sizes as created by `BayesianOptimization`;
all-zero matrices of pending or ignored points are not avoided). With de-duplication no
suggestion is an evaluated, pending or ignored point, and no two suggestions are equal. -/
theorem C33_dedup_partial {config : List Desc} {cs : Option (List ConstrDict)} {sp : Space}
    (h : designSpace config cs = .ok sp) (hb : sp.hasBandit = false)
    (hs : ∀ k ∈ kindsOf config, Samplable k) (hvar : kindsOf config ≠ [])
    (context : Option Context) (hg : ValidContext sp context) (env : EvalEnv) (henv : GoodEnv env)
    (ev : Evaluator)
    (hev : ev = .sequential ∨ (∃ n ≥ 2, ev = .random n) ∨ (∃ n ≥ 1, ev = .thompson n))
    (X : Mat) (pending ignored : Option Mat) (m : Mat)
    (hm : computeNext ev env sp context true X pending ignored = .ok m) :
    m.Nodup ∧ ∀ z ∈ m, Fresh X pending ignored z := by
  rcases hev with rfl | ⟨n, hn, rfl⟩ | ⟨n, hn, rfl⟩
  · obtain ⟨z, rfl, -, -, hf⟩ := C28_sequential_partial h hb hs hvar context hg env henv.op henv.acq
      true X pending ignored m hm
    exact ⟨by simp, by simpa using hf rfl⟩
  · obtain ⟨-, -, h3, -, h5, -⟩ := C29_random_batch_partial h hb hs hvar context hg env henv n hn X
      pending ignored m hm
    exact ⟨h3, h5⟩
  · obtain ⟨-, -, h3, -, h5⟩ := C30_thompson_batch_partial h hb hs hvar context hg env henv n hn X
      pending ignored m hm
    exact ⟨h3, h5⟩

/-- C33 (negation of the full property). Local penalization suggests an evaluated point although
de-duplication is on, and the same point three times. -/
theorem C33_local_penalization_counterexample :
    ((designSpace exConfig none).bind fun sp =>
      computeNext (.localPenalization 3) exEnv sp none true [[-1, -1, 0, 2]] none none)
    = .ok [[-1, -1, 0, 2], [-1, -1, 0, 2], [-1, -1, 0, 2]] := by decide +kernel

end GPyOpt.Props
