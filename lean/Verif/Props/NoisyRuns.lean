import Verif.Props.Regret

/-!
# C177: objectives with noise

The outputs of the objective differ from a function `F` by at most `ν`, in any way that may depend on the number of the call.
-/

namespace GPyOpt.Props

open GPyOpt Spec

/-! ## Outputs related to their locations -/

/-- The data of a state: outputs for all locations, each related to its location. -/
def DataRel (R : Vec → ℚ → Prop) (s : BOState) : Prop := ∃ Y, s.Y = some Y ∧ List.Forall₂ R s.X Y

section
variable {R : Vec → ℚ → Prop} {obj : Nat → Vec → Py ℚ}

theorem evalFunc_rel (hR : ∀ k x y, obj k x = .ok y → R x y) {clock : Nat → ℚ} : ∀ {m : Mat} {w w' : World} {ys ts : Vec},
    evalFunc obj clock m w = (w', .ok (ys, ts)) → List.Forall₂ R m ys
  | [], w, w', ys, ts, h => by
    simp only [evalFunc, Prod.mk.injEq, Except.ok.injEq] at h
    rw [← h.2.1]
    exact .nil
  | x :: m, w, w', ys, ts, h => by
    unfold evalFunc at h
    cases hx : obj w.calls.length x with
    | error e => simp [hx] at h
    | ok y =>
      simp only [hx] at h
      rcases hm : evalFunc obj clock m { calls := w.calls ++ [(x, .ok y)], ticks := w.ticks + 2 } with ⟨w2, e | ⟨ys', ts'⟩⟩
      · rw [hm] at h
        simp at h
      · rw [hm] at h
        simp only [Prod.mk.injEq, Except.ok.injEq] at h
        rw [← h.2.1]
        exact .cons (hR _ _ _ hx) (evalFunc_rel hR hm)

theorem round_rel (hR : ∀ k x y, obj k x = .ok y → R x y) {env : BOEnv} {mi mt : Limit} {eps : ℚ} {s s1 : BOState} {m : Mat}
    {ys : Vec} (hr : boRound env obj mi mt eps s = .next s1) (hs : RoundSpec env obj mi mt eps s m ys s1) :
    List.Forall₂ R m ys := by
  obtain ⟨Y, hY, hY1⟩ := hs.Y
  have hu := hs.suggested
  unfold boRound at hr
  rw [if_pos hs.time] at hr
  rcases hup : updateModel env s with ⟨s2, r⟩
  have hfit := hs.fitted
  rw [hup] at hr hu hfit
  simp only at hfit hu
  subst hfit
  simp only at hr
  obtain ⟨ps, fs, hfr⟩ := updateModel_frame hup
  split_ifs at hr with hstop
  rw [hu] at hr
  simp only at hr
  unfold evaluateObjective at hr
  rcases he : evalFunc obj env.clock m s2.world with ⟨w', e | ⟨ys', ts⟩⟩
  · simp [he] at hr
  simp only [he] at hr
  rcases hc : s2.cost.update env.lg (env.costFit { s2 with X := s2.X ++ m }) m (.list ts) with ⟨c, e | u⟩
  · rw [hc] at hr; simp at hr
  · rw [hc] at hr
    have hY2 : s2.Y = some Y := by rw [hfr]; exact hY
    simp only [hY2, Round.next.injEq] at hr
    rw [← hr] at hY1
    simp only [Option.some.injEq] at hY1
    rw [← List.append_cancel_left hY1]
    exact evalFunc_rel hR he

theorem next_rel (hR : ∀ k x y, obj k x = .ok y → R x y) {env : BOEnv} {mi mt : Limit} {eps : ℚ} {s s1 : BOState} {m : Mat}
    {ys : Vec} (hr : boRound env obj mi mt eps s = .next s1) (hs : RoundSpec env obj mi mt eps s m ys s1)
    (h : DataRel R s) : DataRel R s1 := by
  obtain ⟨Y, hY0, hY1⟩ := hs.Y
  obtain ⟨Y', hY', hrel⟩ := h
  rw [hY0] at hY'
  cases hY'
  exact ⟨_, hY1, by rw [hs.X]; exact List.rel_append hrel (round_rel hR hr hs)⟩

theorem trace_rel (hR : ∀ k x y, obj k x = .ok y → R x y) {env : BOEnv} {mi mt : Limit} {eps : ℚ} {s s' : BOState}
    {bs : List (Mat × Vec)} (ht : Trace env obj mi mt eps s bs s') (h : DataRel R s) : DataRel R s' := by
  induction ht with
  | nil s => exact h
  | cons hr hsp ht ih => exact ih (next_rel hR hr hsp h)

theorem start_rel (hR : ∀ k x y, obj k x = .ok y → R x y) {env : BOEnv} {a : RunArgs} {s s0 : BOState}
    (hY : s.Y = none ∨ DataRel R s) (hst : runStart env obj a s = (s0, .ok ())) (hX : s0.X = s.X) : DataRel R s0 := by
  unfold DataRel
  rw [hX]
  rcases hY with hY | ⟨Y, hY, hrel⟩
  · unfold runStart at hst
    simp only [hY] at hst
    rcases he : evalFunc obj env.clock s.X s.world with ⟨w, e | ⟨ys, ts⟩⟩
    · rw [he] at hst; simp at hst
    have hrel := evalFunc_rel hR he
    rw [he] at hst
    simp only at hst
    split_ifs at hst with hk
    · rcases hc : s.cost.update env.lg (env.costFit { s with params := none, context := a.context, world := w, Y := some ys })
        s.X (.list ts) with ⟨c, e | u⟩
      · rw [hc] at hst; simp at hst
      · rw [hc] at hst
        simp only [Prod.mk.injEq, and_true] at hst
        exact ⟨ys, by rw [← hst], hrel⟩
    · simp only [Prod.mk.injEq, and_true] at hst
      exact ⟨ys, by rw [← hst], hrel⟩
  · unfold runStart at hst
    simp only [hY, Prod.mk.injEq, and_true] at hst
    exact ⟨Y, by rw [← hst], hrel⟩

/-- **C177**, the data: whatever relation holds between every location and every output of the objective there, in every call,
it holds between the locations and the outputs of a completed run, if it holds for the initial data. -/
theorem C177_data (hR : ∀ k x y, obj k x = .ok y → R x y) (env : BOEnv) (hobj : env.obj = some obj) (a : RunArgs)
    (fuel : Nat) (s s' : BOState) (why : Stop) (hY : s.Y = none ∨ DataRel R s)
    (hrun : runOptimization env a fuel s = (s', .done why)) : DataRel R s' := by
  obtain ⟨obj', s0, bs, sk, s2, Y, r, ho, hst0, hst, htr, -, hsp, -, -, rfl⟩ := runOptimization_done hrun
  rw [hobj] at ho
  cases ho
  have h0 := start_rel hR hY hst0 hst.X
  obtain ⟨ps, fs, rfl⟩ := hsp.frame
  obtain ⟨Y1, hY1, hrel⟩ := trace_rel hR htr h0
  exact ⟨Y1, hY1, hrel⟩

theorem trace_states_rel (hR : ∀ k x y, obj k x = .ok y → R x y) {env : BOEnv} {mi mt : Limit} {eps : ℚ} {s s' : BOState}
    {bs : List (Mat × Vec)} (ht : Trace env obj mi mt eps s bs s') (hY : DataRel R s)
    (h1 : ∀ t m, t.context = s.context → DataRel R t → env.suggest t none none = .ok m → m.length = 1) :
    ∀ k < bs.length, ∃ t x, t.numAcq = s.numAcq + k ∧ t.context = s.context ∧ t.X.length = s.X.length + k ∧
      DataRel R t ∧ env.suggest t none none = .ok [x] ∧ t.X ++ [x] <+: s'.X := by
  induction ht with
  | nil s => intro k hk; simp at hk
  | @cons s s1 s' m ys bs hr hsp ht ih =>
    obtain ⟨ps, fs, hfr⟩ := updateModel_frame (env := env) (s := s) (s1 := (updateModel env s).1)
      (r := (updateModel env s).2) (by rfl)
    have hm1 : m.length = 1 := h1 _ m (by rw [hfr]) (by rw [hfr]; exact hY) hsp.suggested
    obtain ⟨x, rfl⟩ := List.length_eq_one_iff.1 hm1
    intro k hk
    cases k with
    | zero =>
      refine ⟨_, x, by rw [hfr]; rfl, by rw [hfr], by rw [hfr]; rfl, by rw [hfr]; exact hY, hsp.suggested, ?_⟩
      have : ((updateModel env s).1).X = s.X := by rw [hfr]
      rw [this, ← hsp.X]
      exact trace_prefix ht
    | succ k =>
      obtain ⟨t, x', t1, t2, t3, t4⟩ := ih (next_rel hR hr hsp hY)
        (fun t m ht => h1 t m (by rw [ht, hsp.context])) k (by simpa using hk)
      refine ⟨t, x', by rw [t1, hsp.numAcq]; omega, by rw [t2, hsp.context], ?_, t4⟩
      rw [t3, hsp.X, List.length_append]
      simp only [List.length_cons, List.length_nil]
      omega

end

/-! ## Noise -/

/-- An output that differs from the value of `F` by at most `ν`. -/
def Noisy (F : Vec → ℚ) (ν : ℚ) (x : Vec) (y : ℚ) : Prop := |y - F x| ≤ ν

theorem forall₂_getElem? {α β : Type} {R : α → β → Prop} : ∀ {l : List α} {m : List β}, List.Forall₂ R l m → ∀ {i : Nat} {x : α} {y : β},
    l[i]? = some x → m[i]? = some y → R x y
  | _, _, .nil, i, x, y, h, _ => by simp at h
  | _, _, .cons h0 ht, 0, x, y, h, h' => by
    simp only [List.getElem?_cons_zero, Option.some.injEq] at h h'
    rw [← h, ← h']
    exact h0
  | _, _, .cons h0 ht, i + 1, x, y, h, h' => by
    simp only [List.getElem?_cons_succ] at h h'
    exact forall₂_getElem? ht h h'

theorem forall₂_mem_left' {α β : Type} {R : α → β → Prop} {l : List α} {m : List β} (h : List.Forall₂ R l m) {x : α}
    (hx : x ∈ l) : ∃ y ∈ m, R x y := by
  obtain ⟨i, hi, rfl⟩ := List.mem_iff_getElem.1 hx
  have hi' : i < m.length := h.length_eq ▸ hi
  exact ⟨m[i], List.getElem_mem _, forall₂_getElem? h (List.getElem?_eq_getElem hi) (List.getElem?_eq_getElem hi')⟩

/-- **C177**, the reported optimum: the reported location is at most `2 * ν` worse than the best evaluated one, the reported value
is within `ν` of the value there and exceeds the value of no evaluated location by more than `ν`.  The same holds at every
moment for the best values: entry `k` of `Y_best` is within `ν` of the smallest value at the first `k + 1` locations. -/
theorem C177_optimum (F : Vec → ℚ) (ν : ℚ) {obj : Nat → Vec → Py ℚ} (hobj' : ∀ k x y, obj k x = .ok y → Noisy F ν x y)
    (env : BOEnv) (hobj : env.obj = some obj) (a : RunArgs) (fuel : Nat) (s s' : BOState) (why : Stop)
    (hY : s.Y = none ∨ DataRel (Noisy F ν) s) (hrun : runOptimization env a fuel s = (s', .done why)) :
    ∃ r : Results, s'.results = some r ∧ r.xOpt ∈ s'.X ∧ |r.fxOpt - F r.xOpt| ≤ ν ∧
      (∀ x ∈ s'.X, r.fxOpt ≤ F x + ν ∧ F r.xOpt ≤ F x + 2 * ν) ∧
      r.yBest.length = s'.X.length ∧
      ∀ (k : Nat) (y : ℚ), r.yBest[k]? = some y →
        (∀ x ∈ s'.X.take (k + 1), y ≤ F x + ν) ∧ ∃ x ∈ s'.X.take (k + 1), F x - ν ≤ y := by
  obtain ⟨Y', hY', hrel⟩ := C177_data hobj' env hobj a fuel s s' why hY hrun
  obtain ⟨r, Y, i, r1, r2, r3, r4, r5, -, r6, r7, -⟩ := C39_reported_optimum env a fuel s s' why hrun
  obtain rfl : Y' = Y := by
    rw [r2] at hY'
    exact (Option.some.inj hY').symm
  have hopt : |r.fxOpt - F r.xOpt| ≤ ν := forall₂_getElem? hrel r5 r4
  have hall : ∀ x ∈ s'.X, r.fxOpt ≤ F x + ν := by
    intro x hx
    obtain ⟨y, hy, hxy⟩ := forall₂_mem_left' hrel hx
    have h1 := r3.2 y hy
    have h2 := (abs_le.1 hxy).2
    linarith
  refine ⟨r, r1, List.mem_of_getElem? r5, hopt, fun x hx => ⟨hall x hx, ?_⟩, by rw [r6, hrel.length_eq], fun k y hk => ?_⟩
  · have h1 := hall x hx
    have h2 := (abs_le.1 hopt).1
    linarith
  · have hmin := r7 k y hk
    have hrel' : List.Forall₂ (Noisy F ν) (s'.X.take (k + 1)) (Y'.take (k + 1)) := List.forall₂_take _ hrel
    refine ⟨fun x hx => ?_, ?_⟩
    · obtain ⟨y', hy', hxy⟩ := forall₂_mem_left' hrel' hx
      have h1 := hmin.2 y' hy'
      have h2 := (abs_le.1 hxy).2
      linarith
    · obtain ⟨x, hx, hxy⟩ := forall₂_mem_left' hrel'.flip hmin.1
      have h2 := (abs_le.1 hxy).1
      exact ⟨x, hx, by linarith⟩

/-- The states `σ k` in which a run makes its suggestions `x k`: `k` suggestions have been made, and the data are the `n0`
initial locations and the suggestions so far, with outputs that differ from the values of `F` by at most `ν`. -/
def NoisyIterates (F : Vec → ℚ) (ν : ℚ) (context : Option Context) (n0 : Nat) (s' : BOState) (σ : Nat → BOState)
    (x : Nat → Vec) : Prop :=
  ∀ k < s'.numAcq, (σ k).numAcq = k ∧ (σ k).context = context ∧ (σ k).X = s'.X.take (n0 + k) ∧
    DataRel (Noisy F ν) (σ k) ∧ s'.X[n0 + k]? = some (x k)

/-- **C177**, search: the bound of C148 for an objective with noise. The intervals of the model contain the values of `F` whenever
the outputs among its data differ from them by at most `ν`. Then the reported value exceeds the value of `F` at every location
sampled in iteration `k` by at most `2 * w * dev + ν`, and the value of `F` at the reported location by at most
`2 * w * dev + 2 * ν`; if every iteration samples a value of at most `q` then the average of the widths bounds the excess over
`q`. -/
theorem C177_search {config : List Desc} {sp : Space} (h : designSpace config none = .ok sp) (hb : sp.hasBandit = false)
    (hs : ∀ k ∈ kindsOf config, Samplable k) (hvar : kindsOf config ≠ []) (hk : AllCont (kindsOf config))
    (w : ℚ) (shift scale : BOState → ℚ) (mean dev : BOState → Vec → ℚ) (F : Vec → ℚ) (ν : ℚ)
    (hcal : ∀ t, DataRel (Noisy F ν) t → Calibrated (kindsOf config) F w (shift t) (scale t) (mean t) (dev t))
    (envs : BOState → EvalEnv) (henvs : ∀ t, GoodEnv (envs t)) (hf : ∀ t, (envs t).f = confidenceF w (mean t) (dev t))
    (hlogic : ∀ t, (envs t).op.anchorLogic = "max_objective") (deDup : Bool) (env : BOEnv)
    (hsug : env.suggest = stdSuggest sp .sequential envs deDup)
    {obj : Nat → Vec → Py ℚ} (hnoise : ∀ k x y, obj k x = .ok y → Noisy F ν x y) (hobj : env.obj = some obj)
    (a : RunArgs) (hg : ValidContext sp a.context)
    (hopt : ∀ t c, contextManager sp a.context = .ok c → ∀ k, Descends ((envs t).oracle.acq.opt k) c.noncontextBounds)
    (fuel : Nat) (s s' : BOState) (why : Stop) (hY : s.Y = none ∨ DataRel (Noisy F ν) s)
    (hrun : runOptimization env a fuel s = (s', .done why)) :
    ∃ (r : Results) (σ : Nat → BOState) (x : Nat → Vec) (Z : Nat → Mat), s'.results = some r ∧
      NoisyIterates F ν a.context s.X.length s' σ x ∧
      (∀ k < s'.numAcq, Sampled config sp a.context (envs (σ k)).oracle.acq.design (envs (σ k)).op.numSamplesObjective (Z k) ∧
        ∀ z ∈ Z k, r.fxOpt ≤ F z + 2 * w * (scale (σ k) * dev (σ k) (x k)) + ν ∧
          F r.xOpt ≤ F z + 2 * w * (scale (σ k) * dev (σ k) (x k)) + 2 * ν) ∧
      ∀ q, (∀ k < s'.numAcq, ∃ z ∈ Z k, F z ≤ q) →
        s'.numAcq * (F r.xOpt - 2 * ν - q) ≤ 2 * w * ∑ k ∈ Finset.range s'.numAcq, scale (σ k) * dev (σ k) (x k) := by
  obtain ⟨r, r1, -, r2, r3, -⟩ := C177_optimum F ν hnoise env hobj a fuel s s' why hY hrun
  have hmin : ∀ x ∈ s'.X, r.fxOpt ≤ F x + ν := fun x hx => (r3 x hx).1
  have key : ∀ k, ∃ (t : BOState) (x : Vec) (Z : Mat), k < s'.numAcq →
      (t.numAcq = k ∧ t.context = a.context ∧ t.X = s'.X.take (s.X.length + k) ∧
        DataRel (Noisy F ν) t ∧ s'.X[s.X.length + k]? = some x) ∧
      Sampled config sp a.context (envs t).oracle.acq.design (envs t).op.numSamplesObjective Z ∧
      ∀ z ∈ Z, r.fxOpt ≤ F z + 2 * w * (scale t * dev t x) + ν := by
    intro k
    by_cases hkn : k < s'.numAcq
    swap
    · exact ⟨s, [], [], fun hh => absurd hh hkn⟩
    obtain ⟨obj', s0, bs, sk, s2, Y, r', ho, hst0, hst, htr, -, hsp, -, -, rfl⟩ := runOptimization_done hrun
    rw [hobj] at ho
    cases ho
    have h0 := start_rel hnoise hY hst0 hst.X
    obtain ⟨ps, fs, rfl⟩ := hsp.frame
    have hsugg : ∀ (t : BOState) (m : Mat), t.context = s0.context → DataRel (Noisy F ν) t →
        env.suggest t none none = .ok m → ∃ x Z, m = [x] ∧ ObjDomain (kindsOf config) x ∧
        Sampled config sp a.context (envs t).oracle.acq.design (envs t).op.numSamplesObjective Z ∧
        ∀ z ∈ Z, z ∈ t.X ∨ F x ≤ F z + 2 * w * (scale t * dev t x) := by
      intro t m t1 t2 t3
      rw [hsug] at t3
      unfold stdSuggest at t3
      rw [t1, hst.context] at t3
      exact confidence_suggestion h hb hs hvar hk hg (henvs t) (hlogic t) (hopt t) (hf t) (hcal t t2) t3
    have hkb : k < bs.length := by
      obtain ⟨Y0, new, hY0, -, -⟩ := hst.Y
      obtain ⟨-, -, -, -, -, d6, -⟩ := htr.data hY0
      rw [hst.numAcq] at d6
      have hk' : k < sk.numAcq := hkn
      omega
    obtain ⟨t, x, t1, t2, t3, t4, t5, t6⟩ := trace_states_rel hnoise htr h0 (fun t m e1 e2 e3 => by
      obtain ⟨x, Z, rfl, -⟩ := hsugg t m e1 e2 e3
      rfl) k hkb
    obtain ⟨x', Z, hx', hxd, hZ1, hZ2⟩ := hsugg t _ t2 t4 t5
    simp only [List.cons.injEq, and_true] at hx'
    subst hx'
    rw [hst.numAcq, Nat.zero_add] at t1
    rw [hst.context] at t2
    rw [hst.X] at t3
    obtain ⟨tl, htl⟩ := t6
    refine ⟨t, x, Z, fun _ => ⟨⟨t1, t2, ?_, t4, ?_⟩, hZ1, fun z hz => ?_⟩⟩
    · show t.X = sk.X.take (s.X.length + k)
      rw [← htl, ← t3, List.append_assoc, List.take_left]
    · show sk.X[s.X.length + k]? = some x
      rw [← htl, ← t3, List.append_assoc, List.getElem?_append_right (le_refl _)]
      simp
    · have hxX : x ∈ sk.X := by rw [← htl]; simp
      rcases hZ2 z hz with hzX | hle
      · have hzX' : z ∈ sk.X := by rw [← htl]; simp [hzX]
        have h1 := hmin z hzX'
        obtain ⟨hpos, hc⟩ := hcal t t4
        have h2 : 0 ≤ w * dev t x := (abs_nonneg _).trans (hc x hxd)
        have h3 := mul_nonneg hpos.le h2
        linarith
      · have := hmin x hxX
        linarith
  choose σ x Z hkey using key
  have hx : ∀ k < s'.numAcq, ∀ z ∈ Z k, F r.xOpt ≤ F z + 2 * w * (scale (σ k) * dev (σ k) (x k)) + 2 * ν := by
    intro k hk z hz
    have h1 := (hkey k hk).2.2 z hz
    have h2 := (abs_le.1 r2).1
    linarith
  refine ⟨r, σ, x, Z, r1, fun k hk => (hkey k hk).1,
    fun k hk => ⟨(hkey k hk).2.1, fun z hz => ⟨(hkey k hk).2.2 z hz, hx k hk z hz⟩⟩, fun q hq => ?_⟩
  have := (average_bound s'.numAcq (F r.xOpt - 2 * ν) q w (fun k => scale (σ k) * dev (σ k) (x k)) fun k hk => by
    obtain ⟨z, hz, hzq⟩ := hq k hk
    have := hx k hk z hz
    linarith).1
  exact this

/-! ## The bounds are sharp -/

/-- `exBO` with the objective `obj`. -/
def exNoisyBO (obj : Nat → Vec → Py ℚ) (sp : Space) : BOEnv := { exBO sp with obj := some obj }

/-- An objective that is `0` at `1` and `2` elsewhere. With noise of `1` all its outputs can be `1`. -/
def exSteps (x : Vec) : ℚ := if x = [1] then 0 else 2

/-- **C177** (negation of more): the reported location may be `2 * ν` worse than an evaluated one, and the reported value may be
lower than all values: here the noise is at most `1`. The first objective is two at the reported location and zero at the second
location; the second objective is zero everywhere, the reported value is `-1`, from the second of four evaluations. -/
theorem C177_sharp_counterexample :
    (∀ (k : Nat) (x : Vec) (y : ℚ), (fun _ _ => .ok 1 : Nat → Vec → Py ℚ) k x = .ok y → Noisy exSteps 1 x y) ∧
    ((designSpace exLine none).map fun sp =>
      let r := runOptimization (exNoisyBO (fun _ _ => .ok 1) sp) { maxIter := some (.fin 2) } 10 (boInit [[0], [1]] none .none)
      (r.2, r.1.X, r.1.results)) = .ok (.done .limit, [[0], [1], [1/3], [1/4]],
        some { yBest := [1, 1, 1, 1], xOpt := [0], fxOpt := 1 }) ∧
    exSteps [0] = exSteps [1] + 2 * 1 ∧
    (∀ (k : Nat) (x : Vec) (y : ℚ), (fun k _ => .ok (if k = 1 then -1 else 1) : Nat → Vec → Py ℚ) k x = .ok y →
      Noisy (fun _ => 0) 1 x y) ∧
    ((designSpace exLine none).map fun sp =>
      let r := runOptimization (exNoisyBO (fun k _ => .ok (if k = 1 then -1 else 1)) sp) { maxIter := some (.fin 2) } 10
        (boInit [[0], [1]] none .none)
      (r.2, r.1.results)) = .ok (.done .limit, some { yBest := [1, -1, -1, -1], xOpt := [1], fxOpt := -1 }) := by
  refine ⟨fun k x y h => ?_, by decide +kernel, by decide +kernel, fun k x y h => ?_, by decide +kernel⟩
  · simp only [Except.ok.injEq] at h
    subst h
    unfold Noisy exSteps
    split_ifs <;> norm_num
  · simp only [Except.ok.injEq] at h
    subst h
    unfold Noisy
    split_ifs <;> norm_num

/-! ## An example: Lipschitz bounds and noise -/

/-- The objective `exValley` with noise of at most `1/10` that alternates. -/
def exShaky (k : Nat) (x : Vec) : Py ℚ := .ok (exValley x + if k % 2 = 0 then 1/10 else -1/10)

theorem exShaky_noisy (k : Nat) (x : Vec) (y : ℚ) (h : exShaky k x = .ok y) : Noisy exValley (1/10) x y := by
  simp only [exShaky, Except.ok.injEq] at h
  subst h
  unfold Noisy
  split_ifs <;> norm_num [abs_le]

theorem exNoisyLip_calibrated (t : BOState) (ht : DataRel (Noisy exValley (1/10)) t) :
    Calibrated [.continuous 0 1] exValley 1 0 1 (exMid t) (fun x => exHalf t x + 1/10) := by
  refine ⟨one_pos, fun x hx => ?_⟩
  have hx1 : |exValley x| ≤ 1 := by
    cases hx with
    | cons h1 h2 =>
      cases h2
      simp only [ValidObj] at h1
      simp only [exValley, List.headD_cons, abs_abs]
      rw [abs_le]
      constructor <;> linarith [h1.1, h1.2]
  have hlip : ∀ u : Vec, exValley u - |x.headD 0 - u.headD 0| ≤ exValley x ∧
      exValley x ≤ exValley u + |x.headD 0 - u.headD 0| := by
    intro u
    unfold exValley
    have e1 := abs_sub_abs_le_abs_sub (u.headD 0 - 1/2) (x.headD 0 - 1/2)
    have e2 := abs_sub_abs_le_abs_sub (x.headD 0 - 1/2) (u.headD 0 - 1/2)
    rw [show u.headD 0 - 1/2 - (x.headD 0 - 1/2) = u.headD 0 - x.headD 0 by ring, abs_sub_comm (u.headD 0) (x.headD 0)] at e1
    rw [show x.headD 0 - 1/2 - (u.headD 0 - 1/2) = x.headD 0 - u.headD 0 by ring] at e2
    constructor <;> linarith
  have hD : ∀ p ∈ exData t, |p.2 - exValley p.1| ≤ 1/10 := by
    obtain ⟨Y, hY, hrel⟩ := ht
    unfold exData
    rw [hY]
    simp only [Option.getD_some]
    clear hY
    generalize t.X = X at hrel
    induction hrel with
    | nil => simp
    | cons h0 _ ih =>
      intro p hp
      rw [List.zip_cons_cons, List.mem_cons] at hp
      rcases hp with rfl | hp
      · exact h0
      · exact ih p hp
  have hb : exLower (exData t) x - 1/10 ≤ exValley x ∧ exValley x ≤ exUpper (exData t) x + 1/10 := by
    generalize exData t = D at hD
    induction D with
    | nil =>
      rw [abs_le] at hx1
      simp only [exLower, exUpper, List.foldr_nil]
      constructor <;> linarith [hx1.1, hx1.2]
    | cons p D ih =>
      obtain ⟨i1, i2⟩ := ih fun p hp => hD p (by simp [hp])
      obtain ⟨l1, l2⟩ := hlip p.1
      obtain ⟨n1, n2⟩ := abs_le.1 (hD p (by simp))
      simp only [exLower, exUpper, List.foldr_cons] at i1 i2 ⊢
      constructor
      · rw [sub_le_iff_le_add]
        exact max_le (by linarith) (by linarith)
      · rw [← sub_le_iff_le_add]
        exact le_min (by linarith) (by linarith)
  unfold exMid exHalf
  rw [abs_le]
  constructor <;> linarith [hb.1, hb.2]

def exNoisyEnvs (t : BOState) : EvalEnv :=
  { exEnv with
    f := confidenceF 1 (exMid t) (fun x => exHalf t x + 1/10)
    oracle := ⟨exStay, exAcq⟩ }

def exShakyBO (sp : Space) : BOEnv :=
  { exSearch sp with
    obj := some exShaky
    suggest := stdSuggest sp .sequential exNoisyEnvs false }

/-- The hypotheses of `C177_search`, and therefore those of the other theorems, are met by search with Lipschitz bounds. -/
example {sp : Space} (h : designSpace exUnitLine none = .ok sp) (a : RunArgs) (ha : a.context = none) (fuel : Nat) (s' : BOState)
    (why : Stop) (hrun : runOptimization (exShakyBO sp) a fuel (boInit [[0]] none .none) = (s', .done why)) :
    ∃ (r : Results) (σ : Nat → BOState) (x : Nat → Vec) (Z : Nat → Mat), s'.results = some r ∧
      NoisyIterates exValley (1/10) a.context 1 s' σ x ∧
      ∀ k < s'.numAcq, ∀ z ∈ Z k, exValley r.xOpt ≤ exValley z + 2 * 1 * (1 * (exHalf (σ k) (x k) + 1/10)) + 2 * (1/10) := by
  have hk : kindsOf exUnitLine = [.continuous 0 1] := by decide +kernel
  have hb : sp.hasBandit = false := by
    have : (designSpace exUnitLine none).map Space.hasBandit = .ok false := by decide +kernel
    rw [h] at this
    simpa [Except.map] using this
  obtain ⟨r, σ, x, Z, h1, h2, h3, -⟩ := C177_search h hb (by rw [hk]; simp [Samplable]) (by rw [hk]; simp)
    (by rw [hk]; intro k hk; exact ⟨0, 1, by simpa using hk⟩) 1 (fun _ => 0) (fun _ => 1) exMid
    (fun t x => exHalf t x + 1/10) exValley (1/10) (fun t ht => by rw [hk]; exact exNoisyLip_calibrated t ht) exNoisyEnvs
    (fun _ => ⟨⟨by simp [exNoisyEnvs, exEnv], by simp [exNoisyEnvs, exEnv], by simp [exNoisyEnvs, exEnv]⟩, exStay_good,
      exAcq_good, by simp [exNoisyEnvs, exEnv], by simp [exNoisyEnvs, exEnv]⟩) (fun _ => rfl)
    (fun _ => by simp [exNoisyEnvs, exEnv]) false (exShakyBO sp) rfl exShaky_noisy rfl a (by simp [ValidContext, ha])
    (fun t c _ k => exStay_descends k _) fuel _ s' why (.inl rfl) hrun
  exact ⟨r, σ, x, Z, h1, h2, fun k hk z hz => ((h3 k hk).2 z hz).2⟩

/-- Two iterations. -/
example : ((designSpace exUnitLine none).map fun sp =>
      let r := runOptimization (exShakyBO sp) { maxIter := some (.fin 2), maxTime := none, eps := -1 } 10
        (boInit [[0]] none .none)
      (r.2, r.1.X, r.1.Y, r.1.results.map Results.fxOpt))
    = .ok (.done .limit, [[0], [1/2], [1/2]], some [3/5, -1/10, 1/10], some (-1/10)) := by
  decide +kernel

end GPyOpt.Props
