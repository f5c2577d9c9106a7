import Verif.Props.Suggest
import Verif.Model.Thompson

/-! # C118: Thompson sampling -/

namespace GPyOpt.Props

open GPyOpt Spec

/-- A model that predicts one mean and one nonnegative deviation per location. -/
structure PlainModel (predict : Mat → Py Prediction) (mean sd : Mat → Vec) : Prop where
  eq : ∀ X, predict X = .ok (.single (mean X) (sd X))
  lenMean : ∀ X, (mean X).length = X.length
  lenSd : ∀ X, (sd X).length = X.length
  nonneg : ∀ X, ∀ v ∈ sd X, 0 ≤ v

theorem normalColumns_rows (z : Nat → ℚ) : ∀ (m s : Vec) (k : Nat), m.length = s.length → (∀ v ∈ s, 0 ≤ v) →
    (normalColumns z k ((m.zip s).map fun p => ([p.1], [p.2]))).map List.flatten =
      .ok (((m.zip s).zipIdx k).map fun p => p.1.1 + p.1.2 * z p.2) := by
  intro m
  induction m with
  | nil => intro s k _ _; rfl
  | cons a m ih =>
    intro s k hl hs
    cases s with
    | nil => simp at hl
    | cons b s =>
      have hb : ¬ b < 0 := not_lt.2 (hs b (by simp))
      have := ih s (k + 1) (by simpa using hl) fun v hv => hs v (by simp [hv])
      simp only [List.zip_cons_cons, List.map_cons, normalColumns, normalColumn, List.any_cons, List.any_nil, hb,
        decide_false, Bool.or_false, Bool.false_eq_true, if_false, List.zipIdx_cons, List.zipIdx_nil, List.map_nil,
        List.length_singleton, List.zip_nil_right]
      cases hr : normalColumns z (k + 1) ((m.zip s).map fun p => ([p.1], [p.2])) with
      | error e => rw [hr] at this; cases this
      | ok cs =>
        rw [hr] at this
        have h2 : cs.flatten = _ := Except.ok.inj this
        show Except.ok _ = _
        rw [List.flatten_cons, h2]
        rfl

/-- C118. The scores are draws from the predictive distributions, one per location and each from a number of its own:
the score of the `i`-th location is its mean plus its deviation times the `i`-th standard normal number. -/
theorem C118_scores {predict : Mat → Py Prediction} {mean sd : Mat → Vec} (hp : PlainModel predict mean sd)
    (z : Nat → ℚ) (X : Mat) :
    ∃ s, thompsonScores predict z X = .ok s ∧ s.length = X.length ∧
      ∀ i (hi : i < X.length), s[i]? = some ((mean X)[i]'(by rw [hp.lenMean]; exact hi) +
        (sd X)[i]'(by rw [hp.lenSd]; exact hi) * z i) := by
  refine ⟨(((mean X).zip (sd X)).zipIdx 0).map fun p => p.1.1 + p.1.2 * z p.2, ?_, ?_, ?_⟩
  · unfold thompsonScores
    rw [hp.eq]
    exact normalColumns_rows z _ _ 0 (by rw [hp.lenMean, hp.lenSd]) (hp.nonneg X)
  · simp [hp.lenMean, hp.lenSd]
  · intro i hi
    simp [hp.lenMean, hp.lenSd, hi]

theorem getD_eq_of_lt {l : Vec} {k : Nat} (h : k < l.length) : l.getD k 0 = l[k] := by
  simp [List.getD, h]

/-- Sorted positions: what comes first has a score at most as large as what comes later. -/
theorem argsort_take_le {argsort : List ℚ → List Nat} (ha : IsArgsort argsort) (s : List ℚ) (k i j : Nat)
    (hi : i ∈ (argsort s).take k) (hj : j < s.length) (hjn : j ∉ (argsort s).take k) (u v : ℚ) (hu : s[i]? = some u)
    (hv : s[j]? = some v) : u ≤ v := by
  obtain ⟨h1, h2⟩ := ha s
  rw [← List.take_append_drop k (argsort s), List.filterMap_append, List.pairwise_append] at h2
  have hjm : j ∈ argsort s := h1.mem_iff.2 (List.mem_range.2 hj)
  rw [← List.take_append_drop k (argsort s), List.mem_append] at hjm
  exact h2.2.2 u (List.mem_filterMap.2 ⟨i, hi, hu⟩) v (List.mem_filterMap.2 ⟨j, hjm.resolve_left hjn, hv⟩)

/-- C118 (partial: models that predict one mean and one deviation per location). In a space without constraints, or
if the samples are found (of a random design; a Sobol design is refused, `C118_constraints_refused`), Thompson sampling fails exactly if all samples of the design are known. Otherwise the anchor points are the unknown samples with the
smallest draws from the predictive distributions: as many as asked for, or all of them. -/
theorem C118_thompson_anchors_partial {config : List Desc} {cs : Option (List ConstrDict)} {sp : Space}
    (h : designSpace config cs = .ok sp) (hb : sp.hasBandit = false)
    (hs : ∀ k ∈ kindsOf config, Samplable k)
    (context : Option Context) (hg : ValidContext sp context) (c : Ctx)
    (hc : contextManager sp context = .ok c) (o : DesignOracle) (ho : UnitOracle o) (t : String)
    (ht : t ∈ ["random", "sobol"]) (n : Nat) (hn : 0 < n) (hfound : cs = none ∨ SamplesFound sp c t n o) (dup : Option DupMgr) (numAnchor : Nat)
    {predict : Mat → Py Prediction} {mean sd : Mat → Vec} (hp : PlainModel predict mean sd) (z : Nat → ℚ)
    (argsort : List ℚ → List Nat) (ha : IsArgsort argsort) :
    ∃ Z : Mat, FreeDesign sp c t o n (Z.map (freePart c)) ∧
      (∀ x ∈ Z, ObjDomain (kindsOf config) x ∧ HasContext sp context x) ∧
    (anchorPoints sp (some c) dup false t n numAnchor o (thompsonScores predict z) argsort = .error .fullyExplored ↔
      ∀ x ∈ Z, InDup dup x) ∧
    ((∃ x ∈ Z, ¬ InDup dup x) → ∃ (fresh : Mat) (pick : List Nat),
      fresh = Z.filter (fun x => ¬ InDup dup x) ∧
      pick.Nodup ∧ (∀ i ∈ pick, i < fresh.length) ∧ pick.length = min numAnchor fresh.length ∧
      anchorPoints sp (some c) dup false t n numAnchor o (thompsonScores predict z) argsort =
        .ok ((pick.filterMap fun i => fresh[i]?).map (encodeRow (kindsOf config))) ∧
      ∀ i ∈ pick, ∀ j, j < fresh.length → j ∉ pick →
        (mean (fresh.map (encodeRow (kindsOf config)))).getD i 0 +
            (sd (fresh.map (encodeRow (kindsOf config)))).getD i 0 * z i ≤
          (mean (fresh.map (encodeRow (kindsOf config)))).getD j 0 +
            (sd (fresh.map (encodeRow (kindsOf config)))).getD j 0 * z j) := by
  obtain ⟨Z, hZD, -, hZ, h3, h4⟩ := C24_anchor_points h hb hs context hg c hc o ho t ht n hn hfound dup numAnchor
    (thompsonScores predict z) (fun X => by
      obtain ⟨s, h1, h2, -⟩ := C118_scores hp z X
      exact ⟨s, h1, h2⟩) argsort ha
  refine ⟨Z, hZD, hZ, h3, fun hex => ?_⟩
  · obtain ⟨fresh, A, s, hf, h5, h6, h7, h8, h9⟩ := h4 hex
    obtain ⟨s', g1, g2, g3⟩ := C118_scores hp z (fresh.map (encodeRow (kindsOf config)))
    rw [h8] at g1
    cases g1
    rw [List.length_map] at g2
    have hperm := (ha s).1
    have hlt : ∀ i ∈ (argsort s).take numAnchor, i < fresh.length := fun i hi => by
      have := hperm.mem_iff.1 (List.mem_of_mem_take hi)
      rw [List.mem_range, g2] at this
      exact this
    refine ⟨fresh, (argsort s).take numAnchor, ?_, ?_, hlt, ?_, ?_, ?_⟩
    · exact hf
    · exact ((hperm.nodup_iff.2 List.nodup_range).sublist (List.take_sublist _ _))
    · rw [List.length_take, hperm.length_eq, List.length_range, g2]
    · rw [h5]
      congr 2
      symm
      rw [show (fun i => fresh[i]?) = id ∘ fun i => fresh[i]? from rfl, ← List.filterMap_map, ← h9, List.filterMap_map]
      simp
    · intro i hi j hj hjn
      have gi := g3 i (by simpa using hlt i hi)
      have gj := g3 j (by simpa using hj)
      have := argsort_take_le ha s numAnchor i j hi (by omega) hjn _ _ gi gj
      have hl1 : ∀ k, k < fresh.length → k < (mean (fresh.map (encodeRow (kindsOf config)))).length := fun k hk => by
        rw [hp.lenMean, List.length_map]; exact hk
      have hl2 : ∀ k, k < fresh.length → k < (sd (fresh.map (encodeRow (kindsOf config)))).length := fun k hk => by
        rw [hp.lenSd, List.length_map]; exact hk
      rw [getD_eq_of_lt (hl1 i (hlt i hi)), getD_eq_of_lt (hl2 i (hlt i hi)),
        getD_eq_of_lt (hl1 j hj), getD_eq_of_lt (hl2 j hj)]
      exact this

/-! ## Models with several samples of their parameters -/

/-- A model that predicts a column of means and deviations for each of `S` samples of its parameters. -/
structure SampledModel (predict : Mat → Py Prediction) (S : Nat) (mean sd : Mat → List Vec) : Prop where
  eq : ∀ X, predict X = .ok (.sampled (mean X) (sd X))
  lenMean : ∀ X, (mean X).length = S ∧ ∀ c ∈ mean X, c.length = X.length
  lenSd : ∀ X, (sd X).length = S ∧ ∀ c ∈ sd X, c.length = X.length
  nonneg : ∀ X, ∀ c ∈ sd X, ∀ v ∈ c, 0 ≤ v

theorem normalColumns_samples (z : Nat → ℚ) (n : Nat) : ∀ (ms ss : List Vec) (k : Nat), ms.length = ss.length →
    (∀ c ∈ ms, c.length = n) → (∀ c ∈ ss, c.length = n) → (∀ c ∈ ss, ∀ v ∈ c, 0 ≤ v) →
    ∃ cs, normalColumns z k (ms.zip ss) = .ok cs ∧ cs.length = ms.length ∧ ∀ c ∈ cs, c.length = n := by
  intro ms
  induction ms with
  | nil => intro ss k _ _ _ _; exact ⟨[], rfl, rfl, by simp⟩
  | cons m ms ih =>
    intro ss k hl hm hs hn
    cases ss with
    | nil => simp at hl
    | cons s ss =>
      have hpos : (s.any fun v => decide (v < 0)) = false := by
        rw [List.any_eq_false]
        intro v hv
        simpa using hn s (by simp) v hv
      have h1 : m.length = n := hm m (by simp)
      have h2 : s.length = n := hs s (by simp)
      obtain ⟨cs, g1, g2, g3⟩ := ih ss (k + n) (by simpa using hl) (fun c hc => hm c (by simp [hc]))
        (fun c hc => hs c (by simp [hc])) (fun c hc => hn c (by simp [hc]))
      refine ⟨(((m.zip s).zipIdx k).map fun p => p.1.1 + p.1.2 * z p.2) :: cs, ?_, by simp [g2], ?_⟩
      · simp only [List.zip_cons_cons, normalColumns, normalColumn, hpos, Bool.false_eq_true, if_false, List.length_map,
          List.length_zipIdx, List.length_zip, h1, h2, min_self, g1]
      · intro c hc
        rcases List.mem_cons.1 hc with rfl | hc
        · simp [h1, h2]
        · exact g3 c hc

/-- With `S` samples of the parameters there are `S` scores per location. -/
theorem sampled_scores {predict : Mat → Py Prediction} {S : Nat} {mean sd : Mat → List Vec}
    (hp : SampledModel predict S mean sd) (z : Nat → ℚ) (X : Mat) :
    ∃ s, thompsonScores predict z X = .ok s ∧ s.length = S * X.length := by
  obtain ⟨cs, h1, h2, h3⟩ := normalColumns_samples z X.length (mean X) (sd X) 0
    (by rw [(hp.lenMean X).1, (hp.lenSd X).1]) (hp.lenMean X).2 (hp.lenSd X).2 (hp.nonneg X)
  refine ⟨cs.flatten, ?_, ?_⟩
  · unfold thompsonScores; rw [hp.eq]; simp only; rw [h1]; rfl
  · rw [List.length_flatten, List.eq_replicate_of_mem (a := X.length) (l := cs.map List.length) (by
      simpa using h3)]
    simp [h2, (hp.lenMean X).1]

/-- Looking up positions fails exactly if one of them is outside of the list. -/
theorem mapE_npGet_error {α : Type} (l : List α) : ∀ idx : List Nat,
    mapE (npGet l) idx = .error .indexError ↔ ∃ i ∈ idx, l.length ≤ i := by
  intro idx
  induction idx with
  | nil => simp [mapE]
  | cons i idx ih =>
    by_cases hi : i < l.length
    · have h1 : npGet l i = .ok l[i] := by simp [npGet, hi]
      rw [show mapE (npGet l) (i :: idx) = _ from rfl]
      simp only [mapE, h1, List.mem_cons]
      constructor
      · intro h
        cases hr : mapE (npGet l) idx with
        | error e =>
          rw [hr] at h
          obtain ⟨j, hj, hl⟩ := ih.1 (by rw [hr]; cases h; rfl)
          exact ⟨j, .inr hj, hl⟩
        | ok r => rw [hr] at h; cases h
      · rintro ⟨j, rfl | hj, hl⟩
        · omega
        · rw [ih.2 ⟨j, hj, hl⟩]
    · have h1 : npGet l i = .error .indexError := by simp [npGet, hi]
      simp only [mapE, h1, List.mem_cons]
      exact ⟨fun _ => ⟨i, .inl rfl, by omega⟩, fun _ => trivial⟩

/-- C118 is false for models with several samples of their parameters (`GPModel_MCMC`). There are `S` scores per
location, and the anchor points are looked up by the position of the score: Thompson sampling raises `IndexError`
exactly if one of the best scores is not one of the first sample. -/
theorem C118_mcmc_index_error {sp : Space} {ctx : Option Ctx} {dup : Option DupMgr} {unique : Bool} {t : String}
    {n numAnchor : Nat} {o : DesignOracle} {predict : Mat → Py Prediction} {S : Nat} {mean sd : Mat → List Vec}
    (hp : SampledModel predict S mean sd) (z : Nat → ℚ) (argsort : List ℚ → List Nat) {X : Mat} {flags : List Bool}
    (hX : anchorSamples sp ctx unique t n o = .ok X) (hfl : mapE (isDup dup sp) X = .ok flags)
    (hne : nonDuplicates X flags ≠ []) :
    ∃ s, thompsonScores predict z (nonDuplicates X flags) = .ok s ∧ s.length = S * (nonDuplicates X flags).length ∧
      (anchorPoints sp ctx dup unique t n numAnchor o (thompsonScores predict z) argsort = .error .indexError ↔
        ∃ i ∈ (argsort s).take (min s.length numAnchor), (nonDuplicates X flags).length ≤ i) := by
  obtain ⟨s, h1, h2⟩ := sampled_scores hp z (nonDuplicates X flags)
  refine ⟨s, h1, h2, ?_⟩
  unfold anchorPoints
  simp only [hX, hfl, hne, if_false, h1]
  exact mapE_npGet_error _ _

/-- Two samples of the parameters; the second one predicts smaller values. -/
def exMcmc : Mat → Py Prediction := fun X =>
  .ok (.sampled [X.map fun r => r.sum, X.map fun r => r.sum - 5] [X.map fun _ => 1, X.map fun _ => 1])

theorem exMcmc_sampled : SampledModel exMcmc 2 (fun X => [X.map fun r => r.sum, X.map fun r => r.sum - 5])
    (fun X => [X.map fun _ => 1, X.map fun _ => 1]) := by
  refine ⟨fun X => rfl, fun X => ⟨rfl, ?_⟩, fun X => ⟨rfl, ?_⟩, ?_⟩ <;> intros <;> aesop

/-- A model with one prediction per location. -/
def exPlain : Mat → Py Prediction := fun X => .ok (.single (X.map fun r => r.sum) (X.map fun _ => 1))

theorem exPlain_plain : PlainModel exPlain (fun X => X.map fun r => r.sum) (fun X => X.map fun _ => 1) := by
  refine ⟨fun X => rfl, fun X => by simp, fun X => by simp, ?_⟩
  intro X v hv
  simp only [List.mem_map] at hv
  obtain ⟨_, _, rfl⟩ := hv
  norm_num

/-- C118. The same request succeeds with one prediction per location, and raises `IndexError` with two samples. -/
theorem C118_mcmc_counterexample :
    ((designSpace exConfig none).bind fun sp => (contextManager sp none).bind fun c =>
      (anchorPoints sp (some c) none false "random" 4 2 exOracle (thompsonScores exPlain fun k => ((k % 2 : Nat) : ℚ)) exArgsort)) =
        .ok [[-1/2, -3/5, 0, 0, 0, 1], [-1/3, -1/2, 3, 0, 1, 0]] ∧
    ((designSpace exConfig none).bind fun sp => (contextManager sp none).bind fun c =>
      (anchorPoints sp (some c) none false "random" 4 2 exOracle (thompsonScores exMcmc fun k => ((k % 2 : Nat) : ℚ)) exArgsort)) =
        .error .indexError := by
  constructor <;> decide +kernel

end GPyOpt.Props
