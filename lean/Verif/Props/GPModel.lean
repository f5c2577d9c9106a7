import Verif.Model.GPModel
import Verif.Lemmas.Parallel

/-!
# Properties C56, C65, C78: Gaussian process models
-/

namespace GPyOpt.Props

open GPyOpt

/-- C56. With `hmc` returning as many samples as asked for, the model keeps exactly `n_samples`
samples: the `k`-th one is sample number `n_burnin + k * subsample_interval` of the chain, so that none
of the burn-in is kept. -/
theorem C56_thinning {α : Type} (hmc : Nat → List α) (hlen : ∀ n, (hmc n).length = n)
    (nSamples nBurnin interval : Nat) (hi : 1 ≤ interval) :
    ∃ ss, thinnedSamples hmc nSamples nBurnin interval = .ok ss ∧ ss.length = nSamples ∧
      ∀ k < nSamples, ss[k]? = (hmc (nBurnin + nSamples * interval))[nBurnin + k * interval]? ∧
        ss[k]? ≠ none := by
  unfold thinnedSamples
  rw [if_neg (by omega)]
  refine ⟨_, rfl, ?_, ?_⟩
  · apply le_antisymm
    · by_contra h
      push Not at h
      have h1 := strided_getElem? (hmc (nBurnin + nSamples * interval)) nBurnin interval nSamples hi
      rw [List.getElem?_eq_getElem h] at h1
      have h2 := (List.getElem?_eq_some_iff.1 h1.symm).1
      rw [hlen] at h2
      omega
    · by_contra h
      push Not at h
      have h1 := strided_getElem? (hmc (nBurnin + nSamples * interval)) nBurnin interval
        (strided (hmc (nBurnin + nSamples * interval)) nBurnin interval).length hi
      rw [List.getElem?_eq_none (le_refl _)] at h1
      have h2 := List.getElem?_eq_none_iff.1 h1.symm
      rw [hlen] at h2
      have := Nat.mul_lt_mul_of_pos_right h (show 0 < interval by omega)
      omega
  · intro k hk
    rw [strided_getElem? _ _ _ _ hi]
    refine ⟨rfl, ?_⟩
    intro h
    have h2 := List.getElem?_eq_none_iff.1 h
    rw [hlen] at h2
    have := Nat.mul_lt_mul_of_pos_right hk (show 0 < interval by omega)
    omega

/-- A zero interval is refused. -/
theorem C56_zero_interval {α : Type} (hmc : Nat → List α) (nSamples nBurnin : Nat) :
    thinnedSamples hmc nSamples nBurnin 0 = .error .valueError := rfl

example : thinnedSamples List.range 3 4 2 = .ok [4, 6, 8] := by decide +kernel

/-! ## C65 -/

theorem assignMask_length (m : List Bool) (p s : List ℝ) : (assignMask m p s).length = p.length := by
  induction m generalizing p s with
  | nil => simp [assignMask]
  | cons b m ih =>
    cases p with
    | nil => cases b <;> simp [assignMask]
    | cons x p =>
      cases b with
      | false => simp [assignMask, ih]
      | true => cases s with
        | nil => simp [assignMask]
        | cons v s => simp [assignMask, ih]

theorem assignMask_twice (m : List Bool) (p s t : List ℝ) (hm : m.length = p.length)
    (hs : s.length = m.count true) (ht : t.length = m.count true) :
    assignMask m (assignMask m p s) t = assignMask m p t := by
  induction m generalizing p s t with
  | nil => simp [assignMask]
  | cons b m ih =>
    cases p with
    | nil => simp at hm
    | cons x p =>
      cases b with
      | false =>
        simp only [assignMask]
        rw [ih p s t (by simpa using hm) (by simpa using hs) (by simpa using ht)]
      | true =>
        cases s with
        | nil => simp at hs
        | cons v s =>
          cases t with
          | nil => simp at ht
          | cons u t =>
            simp only [assignMask]
            rw [ih p s t (by simpa using hm) (by simpa using hs) (by simpa using ht)]

theorem setParams_twice {f : Option (List Bool)} {p q s t : List ℝ} (h : setParams f p s = .ok q) :
    setParams f q t = setParams f p t := by
  unfold setParams at h ⊢
  cases f with
  | none =>
    simp only at h ⊢
    split_ifs at h with hl
    injection h with h
    subst h
    rw [hl]
  | some m =>
    simp only at h ⊢
    split_ifs at h with hl
    injection h with h
    subst h
    rw [assignMask_length]
    split_ifs with hl2
    · rw [assignMask_twice m p s t hl.1 hl.2 hl2.2]
    · rfl

theorem sampleLoop_ok {δ β : Type} {infer : List ℝ → δ} {g : δ → Py β} {samples : List (List ℝ)}
    {st st' : MCMCState δ} {bs : List β} (h : sampleLoop infer g samples st = (st', .ok bs)) :
    st'.fixes = st.fixes ∧
    List.Forall₂ (fun s b => ∃ p, setParams st.fixes st.params s = .ok p ∧ g (infer p) = .ok b)
      samples bs := by
  induction samples generalizing st bs with
  | nil =>
    simp only [sampleLoop, Prod.mk.injEq, Except.ok.injEq] at h
    obtain ⟨rfl, rfl⟩ := h
    exact ⟨rfl, .nil⟩
  | cons s ss ih =>
    unfold sampleLoop at h
    cases hp : setParams st.fixes st.params s with
    | error e => simp [hp] at h
    | ok p =>
      simp only [hp] at h
      cases hg : g (infer p) with
      | error e => simp [hg] at h
      | ok b =>
        simp only [hg] at h
        rcases hr : sampleLoop infer g ss { st with params := p, post := infer p } with ⟨st2, r⟩
        rw [hr] at h
        cases r with
        | error e => simp at h
        | ok bs2 =>
          simp only [Prod.mk.injEq, Except.ok.injEq] at h
          obtain ⟨rfl, rfl⟩ := h
          obtain ⟨h1, h2⟩ := ih hr
          refine ⟨h1, .cons ⟨p, hp, hg⟩ ?_⟩
          simpa only [setParams_twice hp] using h2

theorem withSamples_ok {δ β : Type} {infer : List ℝ → δ} {g : δ → Py β} {samples : List (List ℝ)}
    {st st' : MCMCState δ} {bs : List β} (hc : st.post = infer st.params)
    (h : withSamples infer g samples st = (st', .ok bs)) :
    st' = st ∧
    List.Forall₂ (fun s b => ∃ p, setParams st.fixes st.params s = .ok p ∧ g (infer p) = .ok b)
      samples bs := by
  unfold withSamples at h
  rcases hr : sampleLoop infer g samples st with ⟨st1, r⟩
  rw [hr] at h
  cases r with
  | error e => simp at h
  | ok bs1 =>
    simp only [Prod.mk.injEq, Except.ok.injEq] at h
    obtain ⟨rfl, rfl⟩ := h
    obtain ⟨h1, h2⟩ := sampleLoop_ok hr
    refine ⟨?_, h2⟩
    obtain ⟨p, f, d⟩ := st
    simp only at hc h1 ⊢
    rw [h1, hc]

/-- The parameters during the evaluation of a sample: the sample in place of the parameters that are
not fixed. -/
def SampleParams (st : List ℝ × Option (List Bool)) (s p : List ℝ) : Prop :=
  p.length = st.1.length ∧
  match st.2 with
  | none => p = s
  | some m => (∀ (i : Nat), m[i]? = some false → p[i]? = st.1[i]?) ∧
      ((List.zip m p).filter (·.1)).map Prod.snd = s

theorem setParams_sample {f : Option (List Bool)} {p s q : List ℝ} (h : setParams f p s = .ok q) :
    SampleParams (p, f) s q := by
  unfold setParams at h
  cases f with
  | none =>
    simp only at h
    split_ifs at h with hl
    injection h with h
    subst h
    exact ⟨hl, rfl⟩
  | some m =>
    simp only at h
    split_ifs at h with hl
    injection h with h
    subst h
    refine ⟨assignMask_length _ _ _, ?_, ?_⟩
    · intro i hi
      simp only
      obtain ⟨h1, h2⟩ := hl
      induction m generalizing p s i with
      | nil => simp at hi
      | cons b m ih =>
        cases p with
        | nil => simp at h1
        | cons x p =>
          cases b with
          | false =>
            cases i with
            | zero => simp [assignMask]
            | succ i =>
              simp only [assignMask, List.getElem?_cons_succ] at hi ⊢
              exact ih i hi (by simpa using h1) (by simpa using h2)
          | true =>
            cases s with
            | nil => simp at h2
            | cons v s =>
              cases i with
              | zero => simp at hi
              | succ i =>
                simp only [assignMask, List.getElem?_cons_succ] at hi ⊢
                exact ih i hi (by simpa using h1) (by simpa using h2)
    · obtain ⟨h1, h2⟩ := hl
      induction m generalizing p s with
      | nil => simp at h2; simp [h2]
      | cons b m ih =>
        cases p with
        | nil => simp at h1
        | cons x p =>
          cases b with
          | false =>
            simp only [assignMask, List.zip_cons_cons, Bool.false_eq_true, not_false_eq_true,
              List.filter_cons_of_neg]
            exact ih (by simpa using h1) (by simpa using h2)
          | true =>
            cases s with
            | nil => simp at h2
            | cons v s =>
              simp only [assignMask, List.zip_cons_cons, List.filter_cons_of_pos, List.map_cons,
                List.cons.injEq, true_and]
              exact ih (by simpa using h1) (by simpa using h2)

/-- C65. If `predict`, `get_fmin` or `predict_withGradients` return, the model (parameters and
posterior) is as before, and there is one entry per hyper-parameter sample, computed with the posterior
of that sample: fixed parameters keep the model's values, the others are the sample. The standard
deviations are at least 1e-5. -/
theorem C65_mcmc_predictions {δ : Type} (infer : List ℝ → δ) (predict : δ → List ℝ → Py (ℝ × ℝ))
    (grad : δ → List ℝ → Py (List ℝ × List ℝ)) (means : δ → Py (List ℝ)) (samples : List (List ℝ))
    (x : List ℝ) (st st' : MCMCState δ) (hc : st.post = infer st.params) :
    (∀ out, mcmcPredict infer predict samples x st = (st', .ok out) → st' = st ∧
      List.Forall₂ (fun s o => ∃ p m v, SampleParams (st.params, st.fixes) s p ∧
        predict (infer p) x = .ok (m, v) ∧ o.1 = m ∧ o.2 = Real.sqrt (max v (1 / 10 ^ 10)) ∧
        1 / 10 ^ 5 ≤ o.2) samples out) ∧
    (∀ out, mcmcFmin infer means samples st = (st', .ok out) → st' = st ∧
      List.Forall₂ (fun s o => ∃ p ms, SampleParams (st.params, st.fixes) s p ∧
        means (infer p) = .ok ms ∧ o ∈ ms ∧ ∀ m ∈ ms, o ≤ m) samples out) ∧
    (∀ out, mcmcPredictGrad infer predict grad samples x st = (st', .ok out) → st' = st ∧
      List.Forall₂ (fun s o => ∃ p m v dm dv, SampleParams (st.params, st.fixes) s p ∧
        predict (infer p) x = .ok (m, v) ∧ grad (infer p) x = .ok (dm, dv) ∧
        o = ((m, Real.sqrt (max v (1 / 10 ^ 10))), dm,
          dv.map fun d => d / (2 * Real.sqrt (max v (1 / 10 ^ 10))))) samples out) := by
  refine ⟨?_, ?_, ?_⟩
  · intro out h
    obtain ⟨h1, h2⟩ := withSamples_ok hc h
    refine ⟨h1, h2.imp ?_⟩
    rintro s o ⟨p, hp, ho⟩
    cases hpr : predict (infer p) x with
    | error e => simp [hpr, Except.map] at ho
    | ok mv =>
      simp only [hpr, Except.map, Except.ok.injEq] at ho
      subst ho
      refine ⟨p, mv.1, mv.2, setParams_sample hp, hpr, rfl, rfl, ?_⟩
      simp only [clippedStd]
      apply Real.le_sqrt_of_sq_le
      refine le_trans ?_ (le_max_right _ _)
      norm_num
  · intro out h
    obtain ⟨h1, h2⟩ := withSamples_ok hc h
    refine ⟨h1, h2.imp ?_⟩
    rintro s o ⟨p, hp, ho⟩
    cases hms : means (infer p) with
    | error e => simp [hms] at ho
    | ok ms =>
      cases ms with
      | nil => simp [hms] at ho
      | cons m ms =>
        simp only [hms, Except.ok.injEq] at ho
        subst ho
        have key : ∀ (ms : List ℝ) (m : ℝ), ms.foldl min m ∈ m :: ms ∧ ∀ a ∈ m :: ms, ms.foldl min m ≤ a := by
          intro ms
          induction ms with
          | nil => intro m; simp
          | cons b ms ih =>
            intro m
            obtain ⟨i1, i2⟩ := ih (min m b)
            simp only [List.foldl_cons]
            constructor
            · rcases List.mem_cons.1 i1 with h | h
              · rw [h]
                rcases min_choice m b with h' | h' <;> simp [h']
              · simp [h]
            · intro a ha
              have hmin := i2 (min m b) (by simp)
              rcases List.mem_cons.1 ha with rfl | ha
              · exact hmin.trans (min_le_left _ _)
              · rcases List.mem_cons.1 ha with rfl | ha
                · exact hmin.trans (min_le_right _ _)
                · exact i2 a (by simp [ha])
        exact ⟨p, m :: ms, setParams_sample hp, hms, (key ms m).1, (key ms m).2⟩
  · intro out h
    obtain ⟨h1, h2⟩ := withSamples_ok hc h
    refine ⟨h1, h2.imp ?_⟩
    rintro s o ⟨p, hp, ho⟩
    cases hpr : predict (infer p) x with
    | error e => simp [hpr] at ho
    | ok mv =>
      cases hgr : grad (infer p) x with
      | error e => simp [hpr, hgr] at ho
      | ok gg =>
        simp only [hpr, hgr, Except.ok.injEq] at ho
        subst ho
        exact ⟨p, mv.1, mv.2, gg.1, gg.2, setParams_sample hp, hpr, hgr, rfl⟩

/-- Samples of the right size are accepted: if prediction itself does not raise, the call returns. -/
theorem C65_mcmc_total {δ : Type} (infer : List ℝ → δ) (predict : δ → List ℝ → Py (ℝ × ℝ))
    (samples : List (List ℝ)) (x : List ℝ) (st : MCMCState δ)
    (hp : ∀ d, ∃ mv, predict d x = .ok mv)
    (hs : ∀ s ∈ samples, match st.fixes with
      | none => s.length = st.params.length
      | some m => m.length = st.params.length ∧ s.length = m.count true) :
    ∃ st' out, mcmcPredict infer predict samples x st = (st', .ok out) := by
  have key : ∀ (samples : List (List ℝ)) (st : MCMCState δ), (∀ s ∈ samples, match st.fixes with
      | none => s.length = st.params.length
      | some m => m.length = st.params.length ∧ s.length = m.count true) →
      ∃ st' out, sampleLoop infer (fun d => (predict d x).map fun mv => (mv.1, clippedStd mv.2))
        samples st = (st', .ok out) := by
    intro samples
    induction samples with
    | nil => exact fun st _ => ⟨st, [], rfl⟩
    | cons s ss ih =>
      intro st hs
      have h1 := hs s (by simp)
      obtain ⟨p, hsp⟩ : ∃ p, setParams st.fixes st.params s = .ok p := by
        unfold setParams
        cases hf : st.fixes with
        | none => rw [hf] at h1; simp only at h1 ⊢; rw [if_pos h1]; exact ⟨_, rfl⟩
        | some m => rw [hf] at h1; simp only at h1 ⊢; rw [if_pos h1]; exact ⟨_, rfl⟩
      have hpl := (setParams_sample hsp).1
      obtain ⟨mv, hmv⟩ := hp (infer p)
      obtain ⟨st', out, ho⟩ := ih { st with params := p, post := infer p } (by
        intro t ht
        have := hs t (by simp [ht])
        simp only
        cases hf : st.fixes with
        | none => rw [hf] at this; simp only at this ⊢; rw [this]; exact hpl.symm
        | some m => rw [hf] at this; simp only at this ⊢; exact ⟨this.1.trans hpl.symm, this.2⟩)
      refine ⟨st', (mv.1, clippedStd mv.2) :: out, ?_⟩
      unfold sampleLoop
      simp only [hsp, hmv, Except.map]
      simp only [Except.map] at ho
      rw [ho]
  obtain ⟨st', out, ho⟩ := key samples st hs
  refine ⟨{ st' with params := st.params, post := infer st.params }, out, ?_⟩
  unfold mcmcPredict withSamples
  rw [ho]

/-- If a prediction raises in the loop, the parameters are not restored: there is no `finally`. -/
theorem C65_exception_counterexample :
    ∃ (infer : List ℝ → List ℝ) (predict : List ℝ → List ℝ → Py (ℝ × ℝ)) (st st' : MCMCState (List ℝ))
      (e : Err), st.post = infer st.params ∧
      mcmcPredict infer predict [[2]] [] st = (st', .error e) ∧ st'.params ≠ st.params := by
  refine ⟨id, fun _ _ => .error .linAlg, ⟨[1], none, [1]⟩, ⟨[2], none, [2]⟩, .linAlg, rfl, ?_, ?_⟩
  · simp [mcmcPredict, withSamples, sampleLoop, setParams, Except.map]
  · simp

/-- Two samples, one fixed parameter. -/
example : (mcmcPredict (δ := List ℝ) id (fun d _ => .ok (d.sum, 4)) [[2, 3], [4, 5]] []
      ⟨[1, 7, 1], some [true, false, true], [1, 7, 1]⟩)
    = (⟨[1, 7, 1], some [true, false, true], [1, 7, 1]⟩, .ok [(12, clippedStd 4), (16, clippedStd 4)]) := by
  simp [mcmcPredict, withSamples, sampleLoop, setParams, assignMask, Except.map]
  norm_num

/-! ## C78: copies of models -/

/-- The model after a sequence of fits. -/
def fitted (c : GPConfig) (hist : List (Mat × Vec)) : GPObj :=
  hist.foldl (fun g d => g.update d.1 d.2) ⟨c, none⟩

theorem fitted_update (c : GPConfig) (hist : List (Mat × Vec)) (X : Mat) (Y : Vec) :
    fitted c (hist ++ [(X, Y)]) =
      ⟨{ c with kernel := none },
       some ⟨c.kernel.getD "matern", if c.kernel = none then c.ard else false,
        if c.sparse then some c.numInducing else none, if c.sparse then none else some c.noiseVar,
        c.meanFunction, c.exactFeval, X, Y⟩⟩ := by
  induction hist using List.reverseRecOn generalizing X Y with
  | nil => rfl
  | append_singleton hist d ih =>
    unfold fitted at ih ⊢
    rw [List.foldl_append, ih d.1 d.2]
    rfl

/-- C78 (partial: neither sparse nor with a mean function). After any sequence of fits, a copy of the
model has the same GPy model — kernel, noise, data — and the same options for later updates (the number
of inducing points of a sparse model apart). -/
theorem C78_copy_partial (c : GPConfig) (hs : c.sparse = false) (hm : c.meanFunction = none)
    (hist : List (Mat × Vec)) (hne : hist ≠ []) :
    ∃ g', (fitted c hist).copy = .ok g' ∧ g'.model = (fitted c hist).model ∧ g'.model ≠ none ∧
      { g'.cfg with numInducing := c.numInducing } = (fitted c hist).cfg := by
  obtain ⟨hist, d, rfl⟩ := List.eq_nil_or_concat hist |>.resolve_left hne
  rw [List.concat_eq_append, show d = (d.1, d.2) from rfl, fitted_update]
  obtain ⟨k, nv, ef, op, mi, orr, sp, ni, vb, ard, mf⟩ := c
  simp only at hs hm
  subst hs hm
  refine ⟨_, rfl, rfl, by simp [GPObj.update, GPObj.create], rfl⟩

/-- C78 (negation). The copy of a sparse model is not sparse, the copy of a model with a mean function
has none, and copying a `GP_MCMC` model raises. -/
theorem C78_copy_counterexample :
    (∀ (c : GPConfig) (X : Mat) (Y : Vec), c.sparse = true → ∃ g' m',
      (GPObj.update { cfg := c, model := none } X Y).copy = .ok g' ∧ g'.model = some m' ∧
      m'.sparse = none ∧ (∃ m, (GPObj.update { cfg := c, model := none } X Y).model = some m ∧
        m.sparse = some c.numInducing)) ∧
    (∀ (c : GPConfig) (X : Mat) (Y : Vec) (f : String), c.meanFunction = some f → ∃ g' m',
      (GPObj.update { cfg := c, model := none } X Y).copy = .ok g' ∧ g'.model = some m' ∧
      m'.meanFunction = none ∧ (∃ m, (GPObj.update { cfg := c, model := none } X Y).model = some m ∧
        m.meanFunction = some f)) ∧
    (∀ (α : Type) (rest : Py α), mcmcCopy rest = .error .typeError) := by
  refine ⟨?_, ?_, ?_⟩
  · intro c X Y hs
    refine ⟨_, _, rfl, rfl, rfl, _, rfl, ?_⟩
    simp [hs]
  · intro c X Y f hf
    exact ⟨_, _, rfl, rfl, rfl, _, rfl, hf⟩
  · intro α rest
    rfl

/-- Fitting, whatever the history: the model holds exactly the last data, and the options of its
creation. -/
theorem C78_fitted_data (c : GPConfig) (hist : List (Mat × Vec)) (X : Mat) (Y : Vec) :
    ∃ m, (fitted c (hist ++ [(X, Y)])).model = some m ∧
      m.X = X ∧ m.Y = Y ∧ m.kern = c.kernel.getD "matern" ∧ m.noiseFixed = c.exactFeval ∧
      m.meanFunction = c.meanFunction ∧ m.sparse = (if c.sparse then some c.numInducing else none) := by
  rw [fitted_update]
  exact ⟨_, rfl, rfl, rfl, rfl, rfl, rfl, rfl⟩

example : (GPObj.update ⟨{ kernel := some "rbf", exactFeval := true }, none⟩ [[1]] [2]).copy
    = .ok (GPObj.update ⟨{ kernel := some "rbf", exactFeval := true }, none⟩ [[1]] [2]) := by
  decide +kernel

end GPyOpt.Props
