import Verif.Lemmas.Bandit
import Verif.Props.NoRepeat

/-!
# Property C122: problems with one bandit variable

The arms are the rows of the array given as domain.
-/

namespace GPyOpt.Props

open GPyOpt Spec

variable {sp : Space} {arms : Mat}

/-! ### The acquisition optimizer on arms -/

theorem bandit_anchors (B : OneBandit sp arms) (c : Ctx) {o : DesignOracle} {t : String}
    (ht : t ∈ ["random", "sobol"]) {n : Nat} (hn : 0 < n) {unique : Bool} {dup : Option DupMgr}
    {numAnchor : Nat} {score : Mat → Py (List ℚ)} (hsc : ScoreShape score)
    {argsort : List ℚ → List Nat} (ha : IsArgsort argsort) {as : Mat}
    (has : anchorPoints sp (some c) dup unique t n numAnchor o score argsort = .ok as) :
    (∀ a ∈ as, a ∈ arms ∧ ¬ InDup dup a) ∧ (0 < numAnchor → as ≠ []) := by
  rcases B.anchorPoints_ok c ht hn unique dup numAnchor hsc ha with ⟨e, -, h⟩ | ⟨m, -, -, h2, h3, h4⟩
  · rw [has] at h; cases h
  · by_cases hall : ∀ z ∈ m, InDup dup z
    · rw [has] at h3; cases h3 hall
    · have hex : ∃ z ∈ m, ¬ InDup dup z := by
        by_contra hcon
        exact hall fun z hz => by_contra fun hn => hcon ⟨z, hz, hn⟩
      rcases h4 hex with ⟨X, e, -, h⟩ | ⟨A, h5, h6, h7⟩
      · rw [has] at h; cases h
      · rw [has] at h5; cases h5
        exact ⟨fun a ha => ⟨h2 a (h7 a ha).1, (h7 a ha).2⟩, h6⟩

theorem bandit_acqAnchors (B : OneBandit sp arms) (c : Ctx) {dup : Option DupMgr} {op : AcqOptions}
    (hop : GoodOptions op) {o : AcqOracle} (ho : GoodAcq o) {f : Vec → Py ℚ} {as : Mat}
    (has : acqAnchors sp c dup op o f = .ok as) :
    (∀ a ∈ as, a ∈ arms ∧ ¬ InDup dup a) ∧ as ≠ [] := by
  unfold acqAnchors at has
  split_ifs at has with h1 h2
  · have := bandit_anchors B c (by simp) hop.nObj (objectiveScores_shape f) ho.argsort has
    exact ⟨this.1, this.2 hop.nAnchor⟩
  · have := bandit_anchors B c (by simp) hop.nThompson ho.thompson ho.argsort has
    exact ⟨this.1, this.2 hop.nAnchor⟩

theorem bandit_applyOptimizer (B : OneBandit sp arms) {context : Option Context} {c : Ctx}
    (hc : contextManager sp context = .ok c) {dup : Option DupMgr}
    {opt : (Vec → Py ℚ) → Vec → Py Vec} (hopt : OptShape opt) {f : Vec → Py ℚ} {x0 : Vec}
    (hx0 : x0 ∈ arms) (hd : ¬ InDup dup x0) {r : Vec × ℚ}
    (hr : applyOptimizer sp (some c) dup opt f x0 = .ok r) :
    r.1 ∈ arms ∧ ¬ InDup dup r.1 ∧ f r.1 = .ok r.2 := by
  rcases B.applyOptimizer_ok hc dup hopt f hx0 hd with ⟨e, -, h⟩ | ⟨y, x, -, h2, h3, h4⟩
  · rw [hr] at h; cases h
  · rw [hr] at h4
    cases hf : f x with
    | error e => simp [hf] at h4
    | ok v =>
      simp only [hf, Except.ok.injEq] at h4
      subst h4
      exact ⟨h2, h3, hf⟩

theorem bandit_acqOptimize (B : OneBandit sp arms) {context : Option Context} {c : Ctx}
    (hc : contextManager sp context = .ok c) {dup : Option DupMgr} {op : AcqOptions}
    (hop : GoodOptions op) {o : AcqOracle} (ho : GoodAcq o) {f : Vec → Py ℚ} {r : Vec × ℚ}
    (hr : acqOptimize sp c dup op o f = .ok r) :
    r.1 ∈ arms ∧ ¬ InDup dup r.1 ∧ f r.1 = .ok r.2 := by
  unfold acqOptimize at hr
  cases h1 : chooseOptimizer op.optimizerName with
  | error e => simp [h1] at hr
  | ok u =>
    simp only [h1] at hr
    cases h2 : acqAnchors sp c dup op o f with
    | error e => simp [h2] at hr
    | ok as =>
      simp only [h2] at hr
      cases h3 : optimizedPoints sp (some c) dup o.opt f as with
      | error e => simp [h3] at hr
      | ok pts =>
        simp only [h3] at hr
        cases h4 : argmin (pts.map Prod.snd) with
        | error e => simp [h4] at hr
        | ok i =>
          simp only [h4] at hr
          obtain ⟨ha, -⟩ := bandit_acqAnchors B c hop ho h2
          obtain ⟨⟨a, k⟩, hak, hap⟩ := mapE_ok_mem h3 (List.mem_of_getElem? (npGet_ok.1 hr))
          have := List.mem_zipIdx hak
          have ham := ha a (by rw [this.2.2]; exact List.getElem_mem _)
          exact bandit_applyOptimizer B hc (ho.opt k) ham.1 ham.2 hap

theorem bandit_acqOptimize_total (B : OneBandit sp arms) (hcs : sp.constraints = none)
    {context : Option Context} {c : Ctx}
    (hc : contextManager sp context = .ok c) (dup : Option DupMgr) {op : AcqOptions}
    (hop : GoodOptions op) (hname : op.optimizerName ∈ ["lbfgs", "DIRECT", "CMA"])
    {o : AcqOracle} (ho : GoodAcq o) {f : Vec → Py ℚ} (hf : ∀ x, ∃ v, f x = .ok v)
    (hopt : ∀ k g x, ∃ y, o.opt k g x = .ok y) (hth : ∀ X, ∃ s, o.thompson X = .ok s)
    {t : String} {n : Nat}
    (hlog : (op.anchorLogic = "max_objective" ∧ t = "random" ∧ n = op.numSamplesObjective) ∨
      (op.anchorLogic = "thompson_sampling" ∧ t = "sobol" ∧ n = op.numSamplesThompson)) :
    ∃ m, initialDesign t sp o.design n = .ok m ∧ m.length = n ∧
      ((∀ z ∈ m, InDup dup z) → acqOptimize sp c dup op o f = .error .fullyExplored) ∧
      ((∃ z ∈ m, ¬ InDup dup z) → ∃ r, acqOptimize sp c dup op o f = .ok r) := by
  have hch : chooseOptimizer op.optimizerName = .ok () := by
    have : op.optimizerName = "lbfgs" ∨ op.optimizerName = "DIRECT" ∨ op.optimizerName = "CMA" := by
      simpa using hname
    simp [chooseOptimizer, this]
  -- the anchor points
  have hanc : ∃ m, initialDesign t sp o.design n = .ok m ∧ m.length = n ∧
      ((∀ z ∈ m, InDup dup z) → acqAnchors sp c dup op o f = .error .fullyExplored) ∧
      ((∃ z ∈ m, ¬ InDup dup z) → ∃ as, acqAnchors sp c dup op o f = .ok as) := by
    rcases hlog with ⟨hl, rfl, rfl⟩ | ⟨hl, rfl, rfl⟩
    · rcases B.anchorPoints_ok c (t := "random") (by simp) hop.nObj false dup op.numAnchor
        (objectiveScores_shape f) ho.argsort (o := o.design) with ⟨e, h, -⟩ | ⟨m, h1, h2, -, h3, h4⟩
      · obtain ⟨m, hm⟩ := B.design_total hcs (t := "random") (by simp) o.design op.numSamplesObjective
        rw [hm] at h; cases h
      · refine ⟨m, h1, h2, fun h => by simp [acqAnchors, hl, h3 h], fun h => ?_⟩
        rcases h4 h with ⟨X, e, hX, -⟩ | ⟨A, hA, -⟩
        · obtain ⟨s, hs⟩ : ∃ s, objectiveScores f X = .ok s := mapE_total fun x _ => hf x
          rw [hs] at hX; cases hX
        · exact ⟨A, by simp [acqAnchors, hl, hA]⟩
    · rcases B.anchorPoints_ok c (t := "sobol") (by simp) hop.nThompson false dup op.numAnchor
        ho.thompson ho.argsort (o := o.design) with ⟨e, h, -⟩ | ⟨m, h1, h2, -, h3, h4⟩
      · obtain ⟨m, hm⟩ := B.design_total hcs (t := "sobol") (by simp) o.design op.numSamplesThompson
        rw [hm] at h; cases h
      · refine ⟨m, h1, h2, fun h => by simp [acqAnchors, hl, h3 h], fun h => ?_⟩
        rcases h4 h with ⟨X, e, hX, -⟩ | ⟨A, hA, -⟩
        · obtain ⟨s, hs⟩ := hth X
          rw [hs] at hX; cases hX
        · exact ⟨A, by simp [acqAnchors, hl, hA]⟩
  obtain ⟨m, h1, h2, h3, h4⟩ := hanc
  refine ⟨m, h1, h2, fun h => by simp [acqOptimize, hch, h3 h], fun h => ?_⟩
  obtain ⟨as, has⟩ := h4 h
  obtain ⟨ha, hane⟩ := bandit_acqAnchors B c hop ho has
  obtain ⟨pts, hp⟩ : ∃ pts, optimizedPoints sp (some c) dup o.opt f as = .ok pts := by
    apply mapE_total
    rintro ⟨a, k⟩ hak
    have := List.mem_zipIdx hak
    have ham := ha a (by rw [this.2.2]; exact List.getElem_mem _)
    rcases B.applyOptimizer_ok hc dup (ho.opt k) f ham.1 ham.2 with ⟨e, he, -⟩ | ⟨y, x, -, -, -, heq⟩
    · obtain ⟨y, hy⟩ := hopt k (fNoContext (some c) sp f) a
      rw [hy] at he; cases he
    · obtain ⟨v, hv⟩ := hf x
      exact ⟨(x, v), by simp only [heq, hv]⟩
  have hl : pts.length = as.length := by rw [mapE_length hp]; simp
  have hpne : pts.map Prod.snd ≠ [] := by
    intro hc'
    have := congrArg List.length hc'
    rw [List.length_map, hl] at this
    exact hane (List.length_eq_zero_iff.1 this)
  obtain ⟨i, v, e1, e2, -⟩ := argmin_spec hpne
  simp only [acqOptimize, hch, has, hp, e1]
  rw [List.length_map] at e2
  exact ⟨_, npGet_ok.2 (List.getElem?_eq_getElem e2)⟩

/-- What the loop over the anchor points adds to a batch of arms. -/
theorem bandit_batchLoop (B : OneBandit sp arms) {optAnchor : Nat → Vec → Py Vec} (P : Vec → Prop)
    (hopt : ∀ k a x, P a → optAnchor k a = .ok x → P x) (batchSize : Nat) (as : Mat) :
    ∀ (k : Nat) (batch : Mat) (seen : List Vec) (b : Mat), (∀ a ∈ as, P a) →
    batchLoop sp optAnchor batchSize k as batch seen = .ok b →
    ∃ Z : Mat, b = batch ++ Z ∧ (∀ z ∈ Z, P z ∧ z ∉ seen) ∧ Z.Nodup ∧
      (batch.length < batchSize → b.length ≤ batchSize) := by
  have hz : ∀ x, zipTuple sp x = .ok x := fun x => by simp [zipTuple, B.zip, Except.map]
  induction as with
  | nil =>
    intro k batch seen b _ hbl
    simp only [batchLoop, Except.ok.injEq] at hbl
    subst hbl
    exact ⟨[], by simp, by simp, by simp, fun h => h.le⟩
  | cons a as ih =>
    intro k batch seen b hP hbl
    have hP' : ∀ a ∈ as, P a := fun a' ha' => hP a' (by simp [ha'])
    unfold batchLoop at hbl
    cases hx : optAnchor k a with
    | error e => simp [hx] at hbl
    | ok x =>
      simp only [hx, hz] at hbl
      have step : ∀ z, P z → z ∉ seen →
          (if (batch ++ [z]).length = batchSize then (.ok (batch ++ [z]) : Py Mat)
            else batchLoop sp optAnchor batchSize (k + 1) as (batch ++ [z]) (z :: seen)) = .ok b →
          ∃ Z : Mat, b = batch ++ Z ∧ (∀ z ∈ Z, P z ∧ z ∉ seen) ∧ Z.Nodup ∧
            (batch.length < batchSize → b.length ≤ batchSize) := by
        intro z hPz hns hif
        split_ifs at hif with hlen
        · simp only [Except.ok.injEq] at hif
          subst hif
          refine ⟨[z], rfl, ?_, by simp, fun _ => hlen.le⟩
          simp only [List.mem_singleton, forall_eq]
          exact ⟨hPz, hns⟩
        · obtain ⟨Z, e1, e2, e3, e4⟩ := ih (k + 1) _ _ b hP' hif
          refine ⟨z :: Z, by simpa using e1, ?_, ?_, ?_⟩
          · intro z' hz'
            rcases List.mem_cons.1 hz' with rfl | hz'
            · exact ⟨hPz, hns⟩
            · exact ⟨(e2 z' hz').1, fun hs => (e2 z' hz').2 (by simp [hs])⟩
          · exact List.nodup_cons.2 ⟨fun hm => (e2 z hm).2 (by simp), e3⟩
          · intro hlt
            apply e4
            simp only [List.length_append, List.length_singleton] at hlen ⊢
            omega
      by_cases hs : x ∈ seen
      · simp only [hs, not_true_eq_false, if_false] at hbl
        by_cases hs2 : a ∈ seen
        · simp only [hs2, not_true_eq_false, if_false] at hbl
          split_ifs at hbl with hlen
          · simp only [Except.ok.injEq] at hbl
            subst hbl
            exact ⟨[], by simp, by simp, by simp, fun _ => hlen.le⟩
          · exact ih (k + 1) _ _ b hP' hbl
        · simp only [hs2, not_false_eq_true, if_true] at hbl
          exact step a (hP a (by simp)) hs2 hbl
      · simp only [hs, not_false_eq_true, if_true] at hbl
        exact step x (hopt k a x (hP a (by simp)) hx) hs hbl

theorem bandit_thompsonOptimize (B : OneBandit sp arms) {context : Option Context} {c : Ctx}
    (hc : contextManager sp context = .ok c) {dup : Option DupMgr} {o : AcqOracle}
    (hopt : ∀ k, OptShape (o.opt k)) {f : Vec → Py ℚ} {k : Nat} {a x : Vec}
    (ha : a ∈ arms ∧ ¬ InDup dup a) (hx : thompsonOptimize sp c dup o f k a = .ok x) :
    x ∈ arms ∧ ¬ InDup dup x := by
  unfold thompsonOptimize at hx
  cases hr : applyOptimizer sp (some c) dup (o.opt k) f a with
  | error e => simp [hr] at hx
  | ok r =>
    obtain ⟨h1, h2, -⟩ := bandit_applyOptimizer B hc (hopt k) ha.1 ha.2 hr
    simp only [hr, B.round_arm h1, Except.ok.injEq] at hx
    subst hx
    exact ⟨h1, h2⟩

/-! ## C122 -/

/-- number of points an evaluator is asked for -/
def Evaluator.size : Evaluator → Nat
  | .sequential => 1
  | .random n => n
  | .thompson n => n
  | .localPenalization n => n

/-- C122. One bandit variable, with or without constraints: whatever an evaluator suggests is at least one
arm, every suggestion is an arm, and no context was given. With de-duplication (which local penalization
ignores, C33) the suggested arms are pairwise distinct and none of them has been evaluated, is pending or is
ignored. -/
theorem C122_arms {name : Option String} {cs : Option (List ConstrDict)}
    (h : designSpace (banditConfig name arms) cs = .ok sp)
    (context : Option Context) (env : EvalEnv) (henv : GoodEnv env) (hlp : ∀ k, GoodAcq (env.acqLP k))
    (ev : Evaluator) (hn : 1 ≤ Evaluator.size ev) (hr1 : ev ≠ .random 1) (deDup : Bool) (X : Mat)
    (pending ignored : Option Mat) (m : Mat)
    (hm : computeNext ev env sp context deDup X pending ignored = .ok m) :
    context.getD [] = [] ∧ m ≠ [] ∧ m.length ≤ Evaluator.size ev ∧ (∀ z ∈ m, z ∈ arms) ∧
    (deDup = true → (∀ n, ev ≠ .localPenalization n) →
      m.Nodup ∧ ∀ z ∈ m, Fresh X pending ignored z) := by
  obtain ⟨B, -⟩ := oneBandit h
  obtain ⟨c, b, hc, hbt, hzip⟩ := computeNext_cases hm
  rw [B.zip] at hzip
  simp only [Except.ok.injEq] at hzip
  subst hzip
  refine ⟨(B.context_empty hc).1, ?_⟩
  generalize hdup : (if deDup then some (dupMgr X pending ignored) else none) = dup at hbt
  have hfresh : deDup = true → ∀ z, ¬ InDup dup z → Fresh X pending ignored z := by
    rintro rfl z hz
    simp only [if_true] at hdup
    exact fresh_of_not_inDup (hdup ▸ hz)
  -- it is enough to find arms that are not known
  suffices hs : b ≠ [] ∧ b.length ≤ Evaluator.size ev ∧ (∀ z ∈ b, z ∈ arms) ∧
      (dup ≠ none → (∀ n, ev ≠ .localPenalization n) → b.Nodup ∧ ∀ z ∈ b, ¬ InDup dup z) by
    refine ⟨hs.1, hs.2.1, hs.2.2.1, ?_⟩
    intro hd hev
    have := hs.2.2.2 (by rw [← hdup, hd]; simp) hev
    exact ⟨this.1, fun z hz => hfresh hd z (this.2 z hz)⟩
  cases ev with
  | sequential =>
    simp only [computeBatch, sequentialBatch] at hbt
    cases hx : acqOptimize sp c dup env.op env.oracle.acq env.f with
    | error e => simp [hx] at hbt
    | ok r =>
      simp only [hx, Except.ok.injEq] at hbt
      subst hbt
      obtain ⟨g1, g2, -⟩ := bandit_acqOptimize B hc henv.op henv.acq hx
      refine ⟨by simp, by simp [Evaluator.size], by simpa using g1, fun _ _ => ⟨by simp, by simpa using g2⟩⟩
  | random n =>
    simp only [Evaluator.size] at hn ⊢
    cases dup with
    | none =>
      simp only [computeBatch, randomBatch] at hbt
      cases hx : acqOptimize sp c none env.op env.oracle.acq env.f with
      | error e => simp [hx] at hbt
      | ok r =>
        simp only [hx] at hbt
        obtain ⟨g1, -, -⟩ := bandit_acqOptimize B hc henv.op henv.acq hx
        cases has : randomBatchAnchors sp c none env.numSamplesRandom n env.oracle.batch with
        | error e => simp [has] at hbt
        | ok as =>
          simp only [has, Except.ok.injEq] at hbt
          subst hbt
          obtain ⟨hA, -⟩ := bandit_anchors B c (by simp) henv.nRandom randomScores_shape
            henv.batch.argsort has
          refine ⟨by simp, by simp; omega, ?_, by simp⟩
          intro z hz
          rcases List.mem_cons.1 hz with rfl | hz
          · exact g1
          · exact (hA z (List.mem_of_mem_take hz)).1
    | some dm =>
      simp only [computeBatch, randomBatch, dedupBatch] at hbt
      cases has : randomBatchAnchors sp c (some dm) env.numSamplesRandom n env.oracle.batch with
      | error e => simp [has] at hbt
      | ok as =>
        simp only [has] at hbt
        obtain ⟨hA, -⟩ := bandit_anchors B c (by simp) henv.nRandom randomScores_shape
          henv.batch.argsort has
        cases hx : acqOptimize sp c (some dm) env.op env.oracle.acq env.f with
        | error e => simp only [hx, Except.map] at hbt; simp at hbt
        | ok r =>
          simp only [hx, Except.map] at hbt
          obtain ⟨g1, g2, -⟩ := bandit_acqOptimize B hc henv.op henv.acq hx
          have main : ∀ (Z0 : Mat) (seen : List Vec), (∀ z ∈ Z0, z = r.1) → Z0.length ≤ 1 →
              (seen = Z0 ++ dm.points) →
              (match batchLoop sp (fun _ a => .ok a) n 0 as Z0 seen with
                | .error e => (.error e : Py Mat)
                | .ok b => vstack b) = .ok b →
              b ≠ [] ∧ b.length ≤ n ∧ (∀ z ∈ b, z ∈ arms) ∧ b.Nodup ∧ ∀ z ∈ b, ¬ InDup (some dm) z := by
            intro Z0 seen hZ0 hl0 hseen hbl
            cases hloop : batchLoop sp (fun _ a => .ok a) n 0 as Z0 seen with
            | error e => simp [hloop] at hbl
            | ok b' =>
              simp only [hloop, vstack] at hbl
              split_ifs at hbl with hbe
              simp only [Except.ok.injEq] at hbl
              subst hbl
              obtain ⟨Z, e1, e2, e3, e4⟩ := bandit_batchLoop B
                (optAnchor := fun _ a => .ok a) (fun z => z ∈ arms ∧ ¬ InDup (some dm) z)
                (fun k a x hP hax => by
                  simp only [Except.ok.injEq] at hax
                  subst hax
                  exact hP) n as 0 _ _ _ hA hloop
              refine ⟨hbe, ?_, ?_, ?_, ?_⟩
              · have : n ≠ 1 := by rintro rfl; exact hr1 rfl
                exact e4 (by omega)
              · rw [e1]
                intro z hz
                rcases List.mem_append.1 hz with hz | hz
                · rw [hZ0 z hz]; exact g1
                · exact (e2 z hz).1.1
              · rw [e1, List.nodup_append]
                refine ⟨?_, e3, ?_⟩
                · rcases Z0 with _ | ⟨y, _ | ⟨y', Z0⟩⟩
                  · simp
                  · simp
                  · simp at hl0
                · intro z hz z' hz' heq
                  subst heq
                  exact (e2 z hz').2 (by rw [hseen]; simp [hz])
              · rw [e1]
                intro z hz
                rcases List.mem_append.1 hz with hz | hz
                · rw [hZ0 z hz]; exact g2
                · exact (e2 z hz).1.2
          have hfin : b ≠ [] ∧ b.length ≤ n ∧ (∀ z ∈ b, z ∈ arms) ∧ b.Nodup ∧
              ∀ z ∈ b, ¬ InDup (some dm) z := by
            by_cases hany : npAny [r.1] = true
            · simp only [hany, if_true] at hbt
              rw [show zipTuple sp r.1 = .ok r.1 by simp [zipTuple, B.zip, Except.map]] at hbt
              simp only at hbt
              exact main [r.1] (r.1 :: dm.points) (by simp) (by simp) rfl hbt
            · simp only [hany] at hbt
              exact main [] dm.points (by simp) (by simp) rfl hbt
          exact ⟨hfin.1, hfin.2.1, hfin.2.2.1, fun _ _ => hfin.2.2.2⟩
  | thompson n =>
    simp only [Evaluator.size] at hn ⊢
    cases dup with
    | none =>
      simp only [computeBatch, thompsonBatch] at hbt
      cases has : thompsonBatchAnchors sp c none env.numSamplesThompson n env.oracle.batch with
      | error e => simp [has] at hbt
      | ok as =>
        simp only [has] at hbt
        obtain ⟨hA, -⟩ := bandit_anchors B c (by simp) henv.nThompson henv.batch.thompson
          henv.batch.argsort has
        cases hp : mapE (fun ka : Vec × Nat =>
            thompsonOptimize sp c none env.oracle.batch env.f ka.2 ka.1) (as.zipIdx.take n) with
        | error e => simp [hp] at hbt
        | ok pts =>
          simp only [hp, vstack] at hbt
          split_ifs at hbt with hpe
          simp only [Except.ok.injEq] at hbt
          subst hbt
          refine ⟨hpe, ?_, ?_, by simp⟩
          · rw [mapE_length hp]; simp
          · intro x hx
            obtain ⟨⟨a, k⟩, hak, hap⟩ := mapE_ok_mem hp hx
            have hak' := List.mem_zipIdx (List.mem_of_mem_take hak)
            exact (bandit_thompsonOptimize B hc henv.batch.opt
              (hA a (by rw [hak'.2.2]; exact List.getElem_mem _)) hap).1
    | some dm =>
      simp only [computeBatch, thompsonBatch, dedupBatch] at hbt
      cases has : thompsonBatchAnchors sp c (some dm) env.numSamplesThompson n env.oracle.batch with
      | error e => simp [has] at hbt
      | ok as =>
        simp only [has] at hbt
        obtain ⟨hA, -⟩ := bandit_anchors B c (by simp) henv.nThompson henv.batch.thompson
          henv.batch.argsort has
        cases hloop : batchLoop sp (thompsonOptimize sp c (some dm) env.oracle.batch env.f) n 0 as []
            dm.points with
        | error e => simp [hloop] at hbt
        | ok b' =>
          simp only [hloop, vstack] at hbt
          split_ifs at hbt with hbe
          simp only [Except.ok.injEq] at hbt
          subst hbt
          obtain ⟨Z, e1, e2, e3, e4⟩ := bandit_batchLoop B (fun z => z ∈ arms ∧ ¬ InDup (some dm) z)
            (fun k a x hP hax => bandit_thompsonOptimize B hc henv.batch.opt hP hax) n as 0 _ _ _ hA hloop
          rw [List.nil_append] at e1
          subst e1
          exact ⟨hbe, e4 (by simp; omega), fun z hz => (e2 z hz).1.1,
            fun _ _ => ⟨e3, fun z hz => (e2 z hz).1.2⟩⟩
  | localPenalization n =>
    simp only [Evaluator.size] at hn ⊢
    simp only [computeBatch] at hbt
    cases hl : lpBatch (fun k s => (acqOptimize sp c none env.op (env.acqLP k) (env.fLP s)).map Prod.fst)
        env.lpConsts n env.lpState with
    | error e => rw [hl] at hbt; simp [Except.map] at hbt
    | ok r =>
      obtain ⟨b', s', tr⟩ := r
      rw [hl] at hbt
      simp only [Except.map, Except.ok.injEq] at hbt
      subst hbt
      obtain ⟨e1, e2, e3, e4⟩ := C32_local_penalization _ _ _ _ _ _ _ hl
      refine ⟨?_, by omega, ?_, fun _ hcon => absurd rfl (hcon n)⟩
      · rintro rfl
        simp at e1
        omega
      · intro z hz
        obtain ⟨j, hj, rfl⟩ := List.mem_iff_getElem.1 hz
        obtain ⟨st, x, -, g2, g3, -⟩ := e4 j hj
        rw [List.getElem?_eq_getElem hj] at g2
        simp only [Option.some.injEq] at g2
        rw [g2]
        cases ha : acqOptimize sp c none env.op (env.acqLP j) (env.fLP st) with
        | error e => rw [ha] at g3; simp [Except.map] at g3
        | ok r =>
          rw [ha] at g3
          simp only [Except.map, Except.ok.injEq] at g3
          rw [← g3]
          exact (bandit_acqOptimize B hc henv.op (hlp j) ha).1

/-- C122, existence. Without constraints, and with components that do not raise, the sequential evaluator
with de-duplication reports a fully explored domain exactly if all sampled arms are known, and suggests an
arm otherwise. `m` are the sampled arms. -/
theorem C122_suggestion_exists {name : Option String}
    (h : designSpace (banditConfig name arms) none = .ok sp)
    (env : EvalEnv) (henv : GoodEnv env) (hname : env.op.optimizerName ∈ ["lbfgs", "DIRECT", "CMA"])
    (hlog : env.op.anchorLogic = "max_objective")
    (hf : ∀ x, ∃ v, env.f x = .ok v) (hopt : ∀ k g x, ∃ y, env.oracle.acq.opt k g x = .ok y)
    (hth : ∀ X, ∃ s, env.oracle.acq.thompson X = .ok s) (deDup : Bool) (X : Mat)
    (pending ignored : Option Mat) :
    ∃ m : Mat, initialDesign "random" sp env.oracle.acq.design env.op.numSamplesObjective = .ok m ∧
      m.length = env.op.numSamplesObjective ∧ (∀ z ∈ m, z ∈ arms) ∧
      ((deDup = true ∧ ∀ z ∈ m, z ∈ (dupMgr X pending ignored).points) →
        computeNext .sequential env sp none deDup X pending ignored = .error .fullyExplored) ∧
      (¬ (deDup = true ∧ ∀ z ∈ m, z ∈ (dupMgr X pending ignored).points) →
        ∃ z ∈ arms, computeNext .sequential env sp none deDup X pending ignored = .ok [z]) := by
  obtain ⟨B, hcs⟩ := oneBandit h
  obtain ⟨c, hc⟩ := B.context_none
  obtain ⟨m, h1, h2, h3, h4⟩ := bandit_acqOptimize_total B hcs hc
    (if deDup then some (dupMgr X pending ignored) else none) henv.op hname henv.acq hf hopt hth
    (.inl ⟨hlog, rfl, rfl⟩)
  refine ⟨m, h1, h2, (B.design (by simp) h1).2, ?_, ?_⟩
  · rintro ⟨rfl, hall⟩
    simp only [if_true] at h3
    have := h3 fun z hz => ⟨_, rfl, hall z hz⟩
    simp [computeNext, hc, computeBatch, sequentialBatch, this]
  · intro hno
    have hex : ∃ z ∈ m, ¬ InDup (if deDup then some (dupMgr X pending ignored) else none) z := by
      cases deDup with
      | false =>
        have hpos := henv.op.nObj
        obtain ⟨z, hz⟩ := List.exists_mem_of_ne_nil m (by rintro rfl; simp at h2; omega)
        exact ⟨z, hz, by rintro ⟨dm, hdm, -⟩; simp at hdm⟩
      | true =>
        by_contra hcon
        refine hno ⟨rfl, fun z hz => ?_⟩
        by_contra hnz
        exact hcon ⟨z, hz, by simpa [InDup] using hnz⟩
    obtain ⟨r, hr⟩ := h4 hex
    refine ⟨r.1, (bandit_acqOptimize B hc henv.op henv.acq hr).1, ?_⟩
    simp [computeNext, hc, computeBatch, sequentialBatch, hr, B.zip]

/-- C122, whole runs of arms. With de-duplication a further suggestion is possible only while some arm has not
been evaluated. -/
theorem C122_no_arm_left {name : Option String} {cs : Option (List ConstrDict)}
    (h : designSpace (banditConfig name arms) cs = .ok sp)
    (context : Option Context) (env : EvalEnv) (henv : GoodEnv env) (hlp : ∀ k, GoodAcq (env.acqLP k))
    (ev : Evaluator) (hn : 1 ≤ Evaluator.size ev) (hr1 : ev ≠ .random 1)
    (hev : ∀ n, ev ≠ .localPenalization n) (X : Mat) (hX : ∀ a ∈ arms, a ∈ X)
    (pending ignored : Option Mat) :
    ∃ e, computeNext ev env sp context true X pending ignored = .error e := by
  cases hm : computeNext ev env sp context true X pending ignored with
  | error e => exact ⟨e, rfl⟩
  | ok m =>
    exfalso
    obtain ⟨-, h2, -, h4, h5⟩ := C122_arms h context env henv hlp ev hn hr1 true X pending ignored m hm
    obtain ⟨z, hz⟩ := List.exists_mem_of_ne_nil m h2
    exact ((h5 rfl hev).2 z hz).1 (hX z (h4 z hz))

/-- C122, whole runs. With de-duplication (and any evaluator but local penalization) a run, however it ends,
appends pairwise different arms to the data, none of which is a location of the initial data. In particular
there are at most as many new evaluations as arms. -/
theorem C122_run {name : Option String} {cs : Option (List ConstrDict)}
    (h : designSpace (banditConfig name arms) cs = .ok sp) (ev : Evaluator)
    (hev : ev = .sequential ∨ (∃ n ≥ 2, ev = .random n) ∨ (∃ n ≥ 1, ev = .thompson n))
    (envs : BOState → EvalEnv) (henvs : ∀ s, GoodEnv (envs s)) (hlp : ∀ s k, GoodAcq ((envs s).acqLP k))
    (env : BOEnv) (hsug : env.suggest = stdSuggest sp ev envs true)
    (a : RunArgs) (fuel : Nat) (s : BOState) :
    ∃ new, (runOptimization env a fuel s).1.X = s.X ++ new ∧ new.Nodup ∧
      (∀ z ∈ new, z ∉ s.X ∧ z ∈ arms) ∧ new.length ≤ arms.length := by
  obtain ⟨new, h1, h2, h3⟩ := run_fresh (env := env) (fun _ => True) (fun _ _ _ _ => trivial) (· ∈ arms)
    (fun s m _ hm => by
      rw [hsug] at hm
      have hsz : 1 ≤ Evaluator.size ev ∧ ev ≠ .random 1 ∧ ∀ n, ev ≠ .localPenalization n := by
        rcases hev with rfl | ⟨n, hn, rfl⟩ | ⟨n, hn, rfl⟩
        · simp [Evaluator.size]
        · refine ⟨by simp only [Evaluator.size]; omega, ?_, by simp⟩
          rintro hc
          injection hc with hc
          omega
        · exact ⟨hn, by simp, by simp⟩
      obtain ⟨-, -, -, g4, g5⟩ := C122_arms h s.context (envs s) (henvs s) (hlp s) ev hsz.1 hsz.2.1 true
        s.X none none m hm
      have := g5 rfl hsz.2.2
      exact ⟨this.1, fun z hz => ⟨(this.2 z hz).1, g4 z hz⟩⟩)
    a (fun _ _ => trivial) fuel s
  exact ⟨new, h1, h2, h3, (h2.subperm fun z hz => (h3 z hz).2).length_le⟩

/-- four arms with two columns -/
def exBanditArms : Mat := [[0, 1], [2, 5], [-1, 3], [4, 4]]

/-- suggestions of all evaluators for these arms, two of which are known -/
theorem exBanditArms_suggestions :
    ((designSpace (banditConfig none exBanditArms) none).bind fun sp =>
      computeNext .sequential exEnv sp none true [[-1, 3]] none (some [[0, 1]])) = .ok [[2, 5]] ∧
    ((designSpace (banditConfig none exBanditArms) none).bind fun sp =>
      computeNext (.random 3) exEnv sp none true [[-1, 3]] none none) = .ok [[0, 1], [2, 5], [4, 4]] ∧
    ((designSpace (banditConfig none exBanditArms) none).bind fun sp =>
      computeNext (.thompson 2) exEnv sp none false [] none none) = .ok [[-1, 3], [0, 1]] ∧
    ((designSpace (banditConfig none exBanditArms) none).bind fun sp =>
      computeNext (.localPenalization 2) exEnv sp none true [[0, 1]] none none) = .ok [[0, 1], [0, 1]] := by
  refine ⟨?_, ?_, ?_, ?_⟩ <;> decide +kernel

/-- a run on these arms: the third round finds no further arm among its samples -/
example : ((designSpace (banditConfig none exBanditArms) none).map fun sp =>
      let r := runOptimization (exFull sp) { maxIter := some (.fin 9) } 10 (boInit [[2, 5]] none .none)
      r.1.X) = .ok [[2, 5], [0, 1], [-1, 3], [4, 4]] := by
  decide +kernel

/-- C122: a context that names the bandit variable is a `TypeError`. -/
theorem C122_context :
    (designSpace (banditConfig (some "b") exBanditArms) none).bind (fun sp =>
      (contextManager sp (some [("b", 1)])).map fun _ => ()) = .error .typeError := by decide +kernel

end GPyOpt.Props
