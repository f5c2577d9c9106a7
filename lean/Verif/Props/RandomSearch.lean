import Verif.Props.DesignFound
import Verif.Props.NoRaise

/-!
# Random batches search the whole domain

All rows but one of the batches of the evaluator `random` come from a random design. Whatever model and acquisition do, the
run therefore finds good locations at least as fast as random search.
-/

namespace GPyOpt

open Spec Props

theorem keep_true {α : Type} {p : Nat → Bool} (hp : ∀ i, p i = true) : ∀ (l : List α) (s : Nat), keep p s l = l
  | [], _ => rfl
  | a :: l, s => by simp [keep, hp, keep_true hp l (s + 1)]

theorem contextManager_none {sp : Space} {c : Ctx} (hc : contextManager sp none = .ok c) : c.contextIndexObj = [] := by
  unfold contextManager at hc
  cases hb : sp.getBounds with
  | error e => simp [hb] at hc
  | ok bs =>
    simp only [hb, Except.ok.injEq] at hc
    subst hc
    rfl

/-- The batch of the evaluator `random` without context and de-duplication. -/
theorem randomBatch_rows {config : List Desc} {cs : Option (List ConstrDict)} {sp : Space}
    (h : designSpace config cs = .ok sp) (hb : sp.hasBandit = false)
    (hs : ∀ k ∈ kindsOf config, Samplable k) (hvar : kindsOf config ≠ [])
    {env : EvalEnv} (henv : GoodEnv env) {n : Nat} {X : Mat} {pending ignored : Option Mat} {m : Mat}
    (hm : computeNext (.random n) env sp none false X pending ignored = .ok m) :
    ∃ z0 Y ds sp', designSpace ds sp.constraints = .ok sp' ∧ sp'.hasBandit = false ∧ sp'.kinds = sp.kinds ∧
      initialDesign "random" sp' env.oracle.batch.design env.numSamplesRandom = .ok Y ∧
      Y.length = env.numSamplesRandom ∧ m = z0 :: Y.take (n - 1) := by
  rw [← space_kinds_eq h] at hs hvar
  obtain ⟨c, b, hc, hbt, hzip⟩ := computeNext_cases hm
  have hg : ValidContext sp none := by simp [ValidContext]
  simp only [Bool.false_eq_true, if_false, computeBatch, randomBatch] at hbt
  cases hx : acqOptimize sp c none env.op env.oracle.acq env.f with
  | error e => simp [hx] at hbt
  | ok r =>
    obtain ⟨x0, v0⟩ := r
    simp only [hx] at hbt
    obtain ⟨z0, ⟨hx0, hz0, hc0⟩, hd0, -⟩ := acqOptimize_sound h hb hs hvar hg hc henv.op henv.acq hx
    simp only at hx0
    subst hx0
    cases has : randomBatchAnchors sp c none env.numSamplesRandom n env.oracle.batch with
    | error e => simp [has] at hbt
    | ok as =>
      simp only [has, Except.ok.injEq] at hbt
      subst hbt
      obtain ⟨ds, sp', k1, k2, k3, k4⟩ := anchorSamples_spec h hb hs hg hc henv.batch.unit (t := "random") (by simp)
        henv.nRandom false
      have hfree : ∀ i, freePos c i = true := by
        intro i
        simp [freePos, contextManager_none hc]
      rw [keep_true hfree] at k3
      rcases k4 with ⟨e, -, e2, -⟩ | ⟨Y, Z, y1, y2, y3, y4⟩
      · unfold randomBatchAnchors anchorPoints at has
        simp [e2] at has
      · have hYZ : Z = Y := by
          simp only [Bool.false_eq_true, if_false] at y4
          clear y1 y2 y3
          induction y4 with
          | nil => rfl
          | cons hh _ ih => rw [ih, ← hh.2.2, keep_true hfree]
        subst hYZ
        have hZd : ∀ z ∈ Z, ObjDomain sp.kinds z := by
          intro z hz
          obtain ⟨r, -, hr⟩ := forall₂_mem_right y4 hz
          exact hr.1
        have hall : Z = Z.filter (fun z => !decide (InDup none z)) := by
          rw [List.filter_eq_self.2]
          intro z _
          simp [InDup]
        have hne : Z ≠ [] := by
          rintro rfl
          have := henv.nRandom
          simp only [List.length_nil] at y2
          omega
        obtain ⟨-, -, hA⟩ := anchorPoints_of_samples h hb none (numAnchor := 5 * n) (score := randomScores)
          henv.batch.argsort y3 hZd Z hall
        obtain ⟨A, a1, a2, a3⟩ := hA hne _ rfl (by simp)
        rw [List.length_map, argsort_range henv.batch.argsort] at a2
        have hAZ : A = Z.take (5 * n) := by
          have hinj : Function.Injective (some : Vec → Option Vec) := fun a b hab => by simpa using hab
          apply List.map_injective_iff.2 hinj
          rw [a2]
          apply List.ext_getElem
          · simp
          · intro i h1 h2
            simp
        have hbat : as = A.map (encodeRow sp.kinds) := by
          have : randomBatchAnchors sp c none env.numSamplesRandom n env.oracle.batch =
            .ok (A.map (encodeRow sp.kinds)) := a1
          rw [has] at this
          simpa using this
        subst hbat
        rw [hAZ, ← List.map_take, List.take_take, ← List.map_cons,
          show min (n - 1) (5 * n) = n - 1 by omega] at hzip
        rw [zipInputs_encode_all h hb (by simp) (by
          intro z hz
          rcases List.mem_cons.1 hz with rfl | hz
          · exact hz0
          · exact hZd z (List.mem_of_mem_take hz))] at hzip
        simp only [Except.ok.injEq] at hzip
        exact ⟨z0, Z, ds, sp', k1, k2, k3, y1, y2, hzip.symm⟩

theorem trace_prefix {env : BOEnv} {obj : Nat → Vec → Py ℚ} {mi mt : Limit} {eps : ℚ} {s s' : BOState}
    {bs : List (Mat × Vec)} (ht : Trace env obj mi mt eps s bs s') : s.X <+: s'.X := by
  induction ht with
  | nil s => exact List.prefix_rfl
  | cons hr hsp _ ih => exact (List.prefix_append _ _).trans (hsp.X ▸ ih)

/-- The suggestions of the rounds of a loop are evaluated. -/
theorem trace_suggestions {env : BOEnv} {obj : Nat → Vec → Py ℚ} {mi mt : Limit} {eps : ℚ} {s s' : BOState}
    {bs : List (Mat × Vec)} (ht : Trace env obj mi mt eps s bs s') : ∀ k < bs.length, ∃ t m,
      t.numAcq = s.numAcq + k ∧ t.context = s.context ∧ env.suggest t none none = .ok m ∧ ∀ x ∈ m, x ∈ s'.X := by
  induction ht with
  | nil s => intro k hk; simp at hk
  | @cons s s1 s' m ys bs hr hsp ht ih =>
    intro k hk
    cases k with
    | zero =>
      obtain ⟨ps, fs, hfr⟩ := updateModel_frame (env := env) (s := s) (s1 := (updateModel env s).1)
        (r := (updateModel env s).2) (by rfl)
      refine ⟨_, m, by rw [hfr]; rfl, by rw [hfr], hsp.suggested, fun x hx => ?_⟩
      exact (trace_prefix ht).subset (by rw [hsp.X]; simp [hx])
    | succ k =>
      obtain ⟨t, m', h1, h2, h3, h4⟩ := ih k (by simpa using hk)
      exact ⟨t, m', by rw [h1, hsp.numAcq]; omega, by rw [h2, hsp.context], h3, h4⟩

/-! ## With de-duplication -/

/-- The loop over anchor points that are used as they are. -/
theorem batchLoop_anchors {config : List Desc} {cs : Option (List ConstrDict)} {sp : Space}
    (h : designSpace config cs = .ok sp) (hb : sp.hasBandit = false) (n : Nat) : ∀ (A : Mat) (k : Nat) (batch : Mat)
    (seen : List Vec), (∀ z ∈ A, ObjDomain sp.kinds z) → A.Nodup → batch.length < n →
    batchLoop sp (fun _ a => .ok a) n k (A.map (encodeRow sp.kinds)) batch seen =
      .ok (batch ++ ((A.filter fun z => z ∉ seen).take (n - batch.length)).map (encodeRow sp.kinds))
  | [], k, batch, seen, _, _, _ => by simp [batchLoop]
  | z :: A, k, batch, seen, hA, hnd, hl => by
    have hz := hA z (by simp)
    have hA' : ∀ z ∈ A, ObjDomain sp.kinds z := fun z hz => hA z (by simp [hz])
    rw [List.nodup_cons] at hnd
    simp only [List.map_cons, batchLoop, zipTuple_encode h hb hz]
    by_cases hs : z ∈ seen
    · have hne : batch.length ≠ n := by omega
      simp only [hs, not_true_eq_false, if_false, hne, List.filter_cons, decide_false, Bool.false_eq_true]
      exact batchLoop_anchors h hb n A (k + 1) batch seen hA' hnd.2 hl
    · simp only [hs, not_false_eq_true, if_true, List.filter_cons, decide_true, List.length_append, List.length_cons,
        List.length_nil]
      obtain ⟨d, hd⟩ : ∃ d, n - batch.length = d + 1 := ⟨n - batch.length - 1, by omega⟩
      split_ifs with hn
      · have : d = 0 := by omega
        subst this
        rw [hd]
        simp
      · rw [batchLoop_anchors h hb n A (k + 1) _ _ hA' hnd.2 (by simp; omega), hd, List.take_succ_cons]
        have hfil : A.filter (fun y => y ∉ z :: seen) = A.filter fun y => y ∉ seen := by
          refine List.filter_congr fun y hy => ?_
          have : y ≠ z := fun e => hnd.1 (e ▸ hy)
          simp [this]
        rw [hfil]
        simp only [List.length_append, List.length_cons, List.length_nil, List.append_assoc, List.cons_append,
          List.nil_append, List.map_cons]
        rw [show n - (batch.length + (0 + 1)) = d by omega]

theorem take_filter_take {A : Mat} (hnd : A.Nodup) (z : Vec) {j n : Nat} (hj : j + 1 ≤ n) :
    ((A.take n).filter fun y => y ∉ [z]).take j = (A.filter fun y => y ∉ [z]).take j := by
  induction A generalizing j n with
  | nil => simp
  | cons a A ih =>
    rw [List.nodup_cons] at hnd
    obtain ⟨n, rfl⟩ : ∃ n', n = n' + 1 := ⟨n - 1, by omega⟩
    by_cases ha : a = z
    · subst ha
      have hall : ∀ l : Mat, l.Sublist A → (l.filter fun y => y ∉ [a]) = l := by
        intro l hl
        rw [List.filter_eq_self]
        intro y hy
        have : y ≠ a := fun e => hnd.1 (e ▸ hl.subset hy)
        simp [this]
      simp only [List.take_succ_cons, List.filter_cons, List.mem_singleton, not_true_eq_false, decide_false,
        Bool.false_eq_true, if_false]
      have h1 := hall _ (List.take_sublist n A)
      have h2 := hall _ (List.Sublist.refl A)
      simp only [List.mem_singleton] at h1 h2
      rw [h1, h2, List.take_take, min_eq_left (by omega)]
    · cases j with
      | zero => simp
      | succ j =>
        have := ih hnd.2 (j := j) (n := n) (by omega)
        simp only [List.mem_singleton] at this
        simp only [List.take_succ_cons, List.filter_cons, List.mem_singleton, ha, not_false_eq_true, decide_true, if_true,
          this]

/-- The batch of the evaluator `random` with de-duplication: the optimum of the acquisition (unless it is the origin) and
the smallest unknown samples. -/
theorem randomBatch_dedup {config : List Desc} {cs : Option (List ConstrDict)} {sp : Space}
    (h : designSpace config cs = .ok sp) (hb : sp.hasBandit = false)
    (hs : ∀ k ∈ kindsOf config, Samplable k) (hvar : kindsOf config ≠ [])
    {env : EvalEnv} (henv : GoodEnv env) {n : Nat} (hn : 2 ≤ n) {X : Mat} {pending ignored : Option Mat} {m : Mat}
    (hm : computeNext (.random n) env sp none true X pending ignored = .ok m) :
    ∃ c z0 v0 head Y ds sp', contextManager sp none = .ok c ∧ ObjDomain sp.kinds z0 ∧
      acqOptimize sp c (some (dupMgr X pending ignored)) env.op env.oracle.acq env.f = .ok (encodeRow sp.kinds z0, v0) ∧
      head = (if npAny [encodeRow sp.kinds z0] then [z0] else []) ∧
      designSpace ds sp.constraints = .ok sp' ∧ sp'.hasBandit = false ∧ sp'.kinds = sp.kinds ∧ initialDesign "random" sp' env.oracle.batch.design env.numSamplesRandom = .ok Y ∧
      m = head ++ (((sortedUnique Y).filter fun z => ¬ InDup (some (dupMgr X pending ignored)) z).filter
        fun z => z ∉ head).take (n - head.length) := by
  rw [← space_kinds_eq h] at hs hvar
  obtain ⟨c, b, hc, hbt, hzip⟩ := computeNext_cases hm
  have hg : ValidContext sp none := by simp [ValidContext]
  simp only [if_true, computeBatch, randomBatch, dedupBatch] at hbt
  set dm := dupMgr X pending ignored
  cases has : randomBatchAnchors sp c (some dm) env.numSamplesRandom n env.oracle.batch with
  | error e => simp [has] at hbt
  | ok as =>
    simp only [has] at hbt
    cases hx : acqOptimize sp c (some dm) env.op env.oracle.acq env.f with
    | error e => simp [hx, Except.map] at hbt
    | ok r =>
      obtain ⟨x0, v0⟩ := r
      simp only [hx, Except.map] at hbt
      obtain ⟨z0, ⟨hx0, hz0, hc0⟩, hd0, -⟩ := acqOptimize_sound h hb hs hvar hg hc henv.op henv.acq hx
      simp only at hx0
      subst hx0
      obtain ⟨ds, sp', k1, k2, k3, k4⟩ := anchorSamples_spec h hb hs hg hc henv.batch.unit (t := "random") (by simp)
        henv.nRandom true
      have hfree : ∀ i, freePos c i = true := by
        intro i
        simp [freePos, contextManager_none hc]
      rw [keep_true hfree] at k3
      rcases k4 with ⟨e, -, e2, -⟩ | ⟨Y, Z, y1, y2, y3, y4⟩
      · unfold randomBatchAnchors anchorPoints at has
        simp [e2] at has
      · have hYZ : Z = sortedUnique Y := by
          simp only [if_true] at y4
          clear y1 y2 y3
          generalize sortedUnique Y = U at y4
          induction y4 with
          | nil => rfl
          | cons hh _ ih => rw [ih, ← hh.2.2, keep_true hfree]
        have hZd : ∀ z ∈ Z, ObjDomain sp.kinds z := by
          intro z hz
          obtain ⟨r, -, hr⟩ := forall₂_mem_right y4 hz
          exact hr.1
        have hZn : Z.Nodup := hYZ ▸ sortedUnique_nodup Y
        obtain ⟨hA0, -, hA⟩ := anchorPoints_of_samples h hb (some dm) (numAnchor := 5 * n) (score := randomScores)
          henv.batch.argsort y3 hZd _ rfl
        have hne : Z.filter (fun z => !decide (InDup (some dm) z)) ≠ [] := by
          intro e
          have h0 : randomBatchAnchors sp c (some dm) env.numSamplesRandom n env.oracle.batch = .error .fullyExplored :=
            hA0 e
          rw [has] at h0
          simp at h0
        obtain ⟨A, a1, a2, -⟩ := hA hne _ rfl (by simp)
        set fresh := Z.filter (fun z => !decide (InDup (some dm) z)) with hfresh
        rw [List.length_map, argsort_range henv.batch.argsort] at a2
        have hAZ : A = fresh.take (5 * n) := by
          have hinj : Function.Injective (some : Vec → Option Vec) := fun a b hab => by simpa using hab
          apply List.map_injective_iff.2 hinj
          rw [a2]
          apply List.ext_getElem
          · simp
          · intro i h1 h2
            simp at h1 h2
            simp [h2.2]
        have hbat : as = A.map (encodeRow sp.kinds) := by
          have : randomBatchAnchors sp c (some dm) env.numSamplesRandom n env.oracle.batch =
            .ok (A.map (encodeRow sp.kinds)) := a1
          rw [has] at this
          simpa using this
        have hfd : ∀ z ∈ fresh, ObjDomain sp.kinds z ∧ z ∉ dm.points := by
          intro z hz
          obtain ⟨z1, z2⟩ := List.mem_filter.1 hz
          refine ⟨hZd z z1, fun hzd => ?_⟩
          have : InDup (some dm) z := ⟨dm, rfl, hzd⟩
          simp [this] at z2
        have hfn : fresh.Nodup := hZn.filter _
        have hAd : ∀ z ∈ A, ObjDomain sp.kinds z := fun z hz => (hfd z (List.mem_of_mem_take (hAZ ▸ hz))).1
        have hAn : A.Nodup := by rw [hAZ]; exact hfn.sublist (List.take_sublist _ _)
        have hfresh' : (sortedUnique Y).filter (fun z => ¬ InDup (some dm) z) = fresh := by
          rw [hfresh, hYZ]
          exact List.filter_congr fun z _ => by simp
        rw [hbat] at hbt
        have hfin : ∀ (head seen : Mat), (∀ z ∈ head, ObjDomain sp.kinds z) → head.length < n →
            (∀ z, z ∈ seen ↔ z ∈ head ∨ z ∈ dm.points) →
            (A.filter fun z => z ∉ head).take (n - head.length) = (fresh.filter fun z => z ∉ head).take (n - head.length) →
            (match batchLoop sp (fun _ a => .ok a) n 0 (A.map (encodeRow sp.kinds)) (head.map (encodeRow sp.kinds)) seen with
              | .error e => (.error e : Py Mat)
              | .ok b' => vstack b') = .ok b →
            m = head ++ (fresh.filter fun z => z ∉ head).take (n - head.length) := by
          intro head seen h1 h2 h3 h4 h5
          rw [batchLoop_anchors h hb n A 0 _ seen hAd hAn (by simpa using h2)] at h5
          have h6 : A.filter (fun z => z ∉ seen) = A.filter fun z => z ∉ head := by
            refine List.filter_congr fun z hz => ?_
            have := (hfd z (List.mem_of_mem_take (hAZ ▸ hz))).2
            simp [h3, this]
          rw [List.length_map, h6, h4, ← List.map_append] at h5
          simp only [vstack] at h5
          split_ifs at h5 with h7
          simp only [Except.ok.injEq] at h5
          subst h5
          rw [zipInputs_encode_all h hb (by
            intro e
            apply h7
            rw [e]
            rfl) (by
            intro z hz
            rcases List.mem_append.1 hz with hz | hz
            · exact h1 z hz
            · exact (hfd z (List.mem_filter.1 (List.mem_of_mem_take hz)).1).1)] at hzip
          simpa using hzip.symm
        by_cases hany : npAny [encodeRow sp.kinds z0] = true
        · simp only [hany, if_true, zipTuple_encode h hb hz0] at hbt
          refine ⟨c, z0, v0, [z0], Y, ds, sp', hc, hz0, hx, by rw [if_pos hany], k1, k2, k3, y1, ?_⟩
          rw [hfresh']
          refine hfin [z0] (z0 :: dm.points) (by simpa using hz0) (by simp; omega) (by simp) ?_ hbt
          rw [hAZ]
          exact take_filter_take hfn z0 (by simp; omega)
        · simp only [hany, Bool.false_eq_true, if_false] at hbt
          refine ⟨c, z0, v0, [], Y, ds, sp', hc, hz0, hx, by rw [if_neg hany], k1, k2, k3, y1, ?_⟩
          rw [hfresh']
          refine hfin [] dm.points (by simp) (by simp; omega) (by simp) ?_ hbt
          rw [hAZ]
          simp only [List.not_mem_nil, not_false_eq_true, decide_true, List.filter_true, List.length_nil, Nat.sub_zero]
          rw [List.take_take, min_eq_left (by omega)]

/-! ## Counting -/

open Classical in
/-- The number of sequences that avoid a set. -/
theorem card_avoid {Ω : Type} [Fintype Ω] (B : Ω → Prop) (K : Nat) :
    (Finset.univ.filter fun w : Fin K → Ω => ∀ k, B (w k)).card = (Finset.univ.filter B).card ^ K := by
  have : (Finset.univ.filter fun w : Fin K → Ω => ∀ k, B (w k)) = Fintype.piFinset fun _ => Finset.univ.filter B := by
    ext w
    simp
  rw [this, Fintype.card_piFinset_const]

open Classical in
/-- Sequences that have at least `m` accepted entries and of which the first `m` accepted entries are in `B`. -/
theorem card_firstAccepted {Ω : Type} [Fintype Ω] (F B : Ω → Prop) : ∀ L m : Nat,
    ((Finset.univ.filter fun w : Fin L → Ω => m ≤ ((List.ofFn w).filter F).length ∧
      ∀ x ∈ ((List.ofFn w).filter F).take m, B x).card : ℝ) ≤
      (Fintype.card Ω : ℝ) ^ L *
        (((Finset.univ.filter fun x => F x ∧ B x).card : ℝ) / (Finset.univ.filter F).card) ^ m
  | L, 0 => by
    simp only [pow_zero, mul_one]
    refine le_trans (Nat.cast_le.2 (Finset.card_le_univ _)) ?_
    simp
  | 0, m + 1 => by
    have : (Finset.univ.filter fun w : Fin 0 → Ω => m + 1 ≤ ((List.ofFn w).filter F).length ∧
        ∀ x ∈ ((List.ofFn w).filter F).take (m + 1), B x) = ∅ := by
      ext w
      simp
    rw [this]
    simp only [Finset.card_empty, Nat.cast_zero]
    positivity
  | L + 1, m + 1 => by
    have ih1 := card_firstAccepted F B L (m + 1)
    have ih2 := card_firstAccepted F B L m
    set r : ℝ := ((Finset.univ.filter fun x => F x ∧ B x).card : ℝ) / (Finset.univ.filter F).card with hr
    set S := Finset.univ.filter fun w : Fin L → Ω => m + 1 ≤ ((List.ofFn w).filter F).length ∧
      ∀ x ∈ ((List.ofFn w).filter F).take (m + 1), B x
    set T := Finset.univ.filter fun w : Fin L → Ω => m ≤ ((List.ofFn w).filter F).length ∧
      ∀ x ∈ ((List.ofFn w).filter F).take m, B x
    have hS : ∀ v, v ∈ S ↔ m + 1 ≤ ((List.ofFn v).filter F).length ∧
        ∀ x ∈ ((List.ofFn v).filter F).take (m + 1), B x := fun v => Finset.mem_filter_univ v
    have hT : ∀ v, v ∈ T ↔ m ≤ ((List.ofFn v).filter F).length ∧
        ∀ x ∈ ((List.ofFn v).filter F).take m, B x := fun v => Finset.mem_filter_univ v
    have hcard : (Finset.univ.filter fun w : Fin (L + 1) → Ω => m + 1 ≤ ((List.ofFn w).filter F).length ∧
        ∀ x ∈ ((List.ofFn w).filter F).take (m + 1), B x).card =
        ((Finset.univ.filter fun x => ¬ F x) ×ˢ S ∪ (Finset.univ.filter fun x => F x ∧ B x) ×ˢ T).card := by
      refine Finset.card_bij' (fun w _ => (w 0, Fin.tail w)) (fun p _ => Fin.cons p.1 p.2) ?_ ?_ ?_ ?_
      · intro w hw
        simp only [Finset.mem_filter, Finset.mem_univ, true_and, List.ofFn_succ, List.filter_cons] at hw
        simp only [Finset.mem_union, Finset.mem_product, hS, hT, Finset.mem_filter, Finset.mem_univ, true_and]
        by_cases h0 : F (w 0)
        · right
          simp only [h0, decide_true, if_true, List.length_cons, add_le_add_iff_right, List.take_succ_cons,
            List.mem_cons, forall_eq_or_imp] at hw
          exact ⟨⟨h0, hw.2.1⟩, hw.1, hw.2.2⟩
        · left
          simp only [h0, decide_false, Bool.false_eq_true, if_false] at hw
          exact ⟨h0, hw⟩
      · rintro ⟨x, v⟩ hp
        simp only [Finset.mem_union, Finset.mem_product, hS, hT, Finset.mem_filter, Finset.mem_univ, true_and] at hp
        simp only [Finset.mem_filter, Finset.mem_univ, true_and, List.ofFn_succ, List.filter_cons, Fin.cons_zero,
          Fin.cons_succ]
        rcases hp with ⟨h0, h1⟩ | ⟨⟨h0, h1⟩, h2, h3⟩
        · simpa [h0] using h1
        · simp only [h0, decide_true, if_true, List.length_cons, add_le_add_iff_right, List.take_succ_cons,
            List.mem_cons, forall_eq_or_imp]
          exact ⟨h2, h1, h3⟩
      · intro w _
        exact Fin.cons_self_tail w
      · rintro ⟨x, v⟩ _
        simp
    rw [hcard, Finset.card_union_of_disjoint, Finset.card_product, Finset.card_product]
    swap
    · rw [Finset.disjoint_left]
      rintro ⟨x, v⟩ h1 h2
      simp only [Finset.mem_product, Finset.mem_filter, Finset.mem_univ, true_and] at h1 h2
      exact h1.1 h2.1.1
    have hF : ((Finset.univ.filter F).card : ℝ) + (Finset.univ.filter fun x => ¬ F x).card = Fintype.card Ω := by
      have := Finset.card_filter_add_card_filter_not (s := (Finset.univ : Finset Ω)) F
      rw [Finset.card_univ] at this
      exact_mod_cast this
    have hFB : ((Finset.univ.filter fun x => F x ∧ B x).card : ℝ) = (Finset.univ.filter F).card * r := by
      by_cases h0 : ((Finset.univ.filter F).card : ℝ) = 0
      · have h1 : (Finset.univ.filter fun x => F x ∧ B x).card ≤ (Finset.univ.filter F).card :=
          Finset.card_le_card fun x hx => by
            simp only [Finset.mem_filter, Finset.mem_univ, true_and] at hx ⊢
            exact hx.1
        have h2 : (Finset.univ.filter F).card = 0 := by exact_mod_cast h0
        rw [h0, zero_mul]
        exact_mod_cast (by omega : (Finset.univ.filter fun x => F x ∧ B x).card = 0)
      · rw [hr]
        field_simp
    push_cast
    rw [hFB]
    have hr0 : 0 ≤ r := div_nonneg (Nat.cast_nonneg _) (Nat.cast_nonneg _)
    clear_value r S T
    calc ((Finset.univ.filter fun x => ¬ F x).card : ℝ) * S.card + (Finset.univ.filter F).card * r * T.card
        ≤ ((Finset.univ.filter fun x => ¬ F x).card : ℝ) * ((Fintype.card Ω : ℝ) ^ L * r ^ (m + 1)) +
          (Finset.univ.filter F).card * r * ((Fintype.card Ω : ℝ) ^ L * r ^ m) :=
          add_le_add (mul_le_mul_of_nonneg_left ih1 (Nat.cast_nonneg _))
            (mul_le_mul_of_nonneg_left ih2 (mul_nonneg (Nat.cast_nonneg _) hr0))
      _ = (Fintype.card Ω : ℝ) ^ (L + 1) * r ^ (m + 1) := by
          rw [pow_succ (Fintype.card Ω : ℝ) L, ← hF]
          ring

open Classical in
/-- The same for rounds of `n` entries. -/
theorem card_firstAccepted_rounds {Ω : Type} [Fintype Ω] (F B : Ω → Prop) (N n m : Nat) :
    ((Finset.univ.filter fun w : Fin N → Fin n → Ω => m ≤ ((List.ofFn fun i => List.ofFn (w i)).flatten.filter F).length ∧
      ∀ x ∈ ((List.ofFn fun i => List.ofFn (w i)).flatten.filter F).take m, B x).card : ℝ) ≤
      (Fintype.card Ω : ℝ) ^ (N * n) *
        (((Finset.univ.filter fun x => F x ∧ B x).card : ℝ) / (Finset.univ.filter F).card) ^ m := by
  refine le_trans (le_of_eq ?_) (card_firstAccepted F B (N * n) m)
  simp only [flatten_rounds]
  congr 1
  refine Finset.card_bij' (fun w _ => fun k : Fin (N * n) => w (finProdFinEquiv.symm k).1 (finProdFinEquiv.symm k).2)
    (fun v _ => fun i j => v (finProdFinEquiv (i, j))) ?_ ?_ ?_ ?_
  · intro w hw
    simpa only [Finset.mem_filter, Finset.mem_univ, true_and] using hw
  · intro v hv
    simpa only [Finset.mem_filter, Finset.mem_univ, true_and, Prod.mk.eta, Equiv.apply_symm_apply] using hv
  · intro w _
    funext i j
    simp only [Equiv.symm_apply_apply]
  · intro v _
    funext k
    simp only [Prod.mk.eta, Equiv.apply_symm_apply]

open Classical in
theorem card_ratio_le {Ω : Type} [Fintype Ω] (F G B : Ω → Prop) (hB : ∀ x, B x → ¬ G x) :
    ((Finset.univ.filter fun x => F x ∧ B x).card : ℝ) / (Finset.univ.filter F).card ≤
      1 - ((Finset.univ.filter fun x => F x ∧ G x).card : ℝ) / (Finset.univ.filter F).card := by
  have hsum : (Finset.univ.filter fun x => F x ∧ G x).card + (Finset.univ.filter fun x => F x ∧ B x).card ≤
      (Finset.univ.filter F).card := by
    rw [← Finset.card_union_of_disjoint]
    · refine Finset.card_le_card fun x hx => ?_
      simp only [Finset.mem_union, Finset.mem_filter, Finset.mem_univ, true_and] at hx ⊢
      exact hx.elim And.left And.left
    · rw [Finset.disjoint_left]
      intro x h1 h2
      simp only [Finset.mem_filter, Finset.mem_univ, true_and] at h1 h2
      exact hB x h2.2 h1.2
  rw [le_sub_iff_add_le, ← add_div]
  refine div_le_one_of_le₀ ?_ (Nat.cast_nonneg _)
  rw [add_comm]
  exact_mod_cast hsum

open Classical in
/-- The rounds of `K` iterations, the first `m` accepted entries of each of which are not in `G`. -/
theorem card_iterations {Ω : Type} [Fintype Ω] (F G : Ω → Prop) (K R N m : Nat)
    (A : (Fin K → Fin R → Fin N → Ω) → Prop)
    (hA : ∀ ω, A ω → ∀ k, m ≤ ((List.ofFn fun i => List.ofFn (ω k i)).flatten.filter F).length ∧
      ∀ x ∈ ((List.ofFn fun i => List.ofFn (ω k i)).flatten.filter F).take m, ¬ G x) :
    ((Finset.univ.filter A).card : ℝ) / Fintype.card (Fin K → Fin R → Fin N → Ω) ≤
      (1 - ((Finset.univ.filter fun x => F x ∧ G x).card : ℝ) / (Finset.univ.filter F).card) ^ (K * m) := by
  obtain ⟨B, hB⟩ : ∃ B : Ω → Prop, ∀ x, B x ↔ ¬ G x := ⟨_, fun _ => Iff.rfl⟩
  obtain ⟨E, hE⟩ : ∃ E : (Fin R → Fin N → Ω) → Prop, ∀ w, E w ↔
      m ≤ ((List.ofFn fun i => List.ofFn (w i)).flatten.filter F).length ∧
      ∀ x ∈ ((List.ofFn fun i => List.ofFn (w i)).flatten.filter F).take m, B x := ⟨_, fun _ => Iff.rfl⟩
  have h2 := card_ratio_le F G B fun x hx => (hB x).1 hx
  have h3 : (0 : ℝ) ≤ ((Finset.univ.filter fun x => F x ∧ B x).card : ℝ) / (Finset.univ.filter F).card := by positivity
  have h1 : ((Finset.univ.filter E).card : ℝ) ≤ (Fintype.card Ω : ℝ) ^ (R * N) *
      (((Finset.univ.filter fun x => F x ∧ B x).card : ℝ) / (Finset.univ.filter F).card) ^ m := by
    refine le_trans (le_of_eq ?_) (card_firstAccepted_rounds F B R N m)
    congr 2
    ext w
    rw [Finset.mem_filter_univ, Finset.mem_filter_univ, hE]
  have h4 : (Finset.univ.filter A).card ≤ (Finset.univ.filter E).card ^ K := by
    rw [← card_avoid E K]
    refine Finset.card_le_card fun ω hω => ?_
    rw [Finset.mem_filter_univ] at hω ⊢
    intro k
    rw [hE]
    obtain ⟨a1, a2⟩ := hA ω hω k
    exact ⟨a1, fun x hx => (hB x).2 (a2 x hx)⟩
  generalize ((Finset.univ.filter fun x => F x ∧ G x).card : ℝ) / (Finset.univ.filter F).card = γ at h2 ⊢
  generalize ((Finset.univ.filter fun x => F x ∧ B x).card : ℝ) / (Finset.univ.filter F).card = r at h1 h2 h3
  generalize (Finset.univ.filter E).card = e at h1 h4
  have hT : (Fintype.card (Fin K → Fin R → Fin N → Ω) : ℝ) = ((Fintype.card Ω : ℝ) ^ (R * N)) ^ K := by
    simp only [Fintype.card_pi, Finset.prod_const, Finset.card_univ, Fintype.card_fin]
    push_cast
    rw [mul_comm R N, pow_mul]
  have h5 : ((Finset.univ.filter A).card : ℝ) ≤ (e : ℝ) ^ K := by exact_mod_cast h4
  rw [hT]
  refine div_le_of_le_mul₀ (by positivity) (by have := h3.trans h2; positivity) (h5.trans ?_)
  calc (e : ℝ) ^ K ≤ ((Fintype.card Ω : ℝ) ^ (R * N) * r ^ m) ^ K := pow_le_pow_left₀ (Nat.cast_nonneg _) h1 K
    _ = r ^ (K * m) * ((Fintype.card Ω : ℝ) ^ (R * N)) ^ K := by
      rw [mul_pow, ← pow_mul r, mul_comm m K]
      ring
    _ ≤ (1 - γ) ^ (K * m) * ((Fintype.card Ω : ℝ) ^ (R * N)) ^ K :=
      mul_le_mul_of_nonneg_right (pow_le_pow_left₀ h3 h2 _) (by positivity)

/-! ## The draws of a run -/

/-- The samples of the evaluator `random` in iteration `k` of a run are `N` rows drawn from `o k`; everything else is as in
`envs`. -/
def drawnEnvs (N : Nat) (o : Nat → DesignOracle) (envs : BOState → EvalEnv) (s : BOState) : EvalEnv :=
  { envs s with
    numSamplesRandom := N
    oracle := { (envs s).oracle with batch := { (envs s).oracle.batch with design := o s.numAcq } } }

/-- An optimizer with the evaluator `random`, batches of `b` locations and no de-duplication. -/
def randomBO (env : BOEnv) (sp : Space) (b N : Nat) (o : Nat → DesignOracle) (envs : BOState → EvalEnv) : BOEnv :=
  { env with suggest := stdSuggest sp (.random b) (drawnEnvs N o envs) false }

theorem goodEnv_drawn {N : Nat} (hN : 0 < N) {o : Nat → DesignOracle} (ho : ∀ k, UnitOracle (o k))
    {envs : BOState → EvalEnv} (henvs : ∀ s, GoodEnv (envs s)) (s : BOState) : GoodEnv (drawnEnvs N o envs s) where
  op := (henvs s).op
  acq := (henvs s).acq
  batch := ⟨ho _, (henvs s).batch.argsort, (henvs s).batch.thompson, (henvs s).batch.opt⟩
  nRandom := hN
  nThompson := (henvs s).nThompson

/-- The draws of `K` iterations: `R` rounds of `N` rows for each. -/
abbrev Draws (M K R N : Nat) (ks : List Kind) : Type := Fin K → Fin R → Fin N → RawRow M ks

/-- The draws of the first `K` iterations, followed by `rest`. -/
def drawsOf {M R N K : Nat} {ks : List Kind} (junk : Nat → Nat → ℚ) (rest : Nat → DesignOracle) (ω : Draws M K R N ks)
    (k : Nat) : DesignOracle :=
  if h : k < K then oracleOf junk (ω ⟨k, h⟩) else rest k

theorem unitOracle_oracleOf {M n N : Nat} {ks : List Kind} (junk : Nat → Nat → ℚ) (ω : Fin N → Fin n → RawRow M ks) :
    UnitOracle (oracleOf junk ω) := by
  refine ⟨fun i => ?_, fun r k => by simp [oracleOf], fun r k => by simp [oracleOf]⟩
  unfold oracleOf
  by_cases hi : i < N
  · simpa [hi] using unitDraw_drawOf junk (ω ⟨i, hi⟩)
  · intro k r
    simp [hi]

theorem unitOracle_drawsOf {M R N K : Nat} {ks : List Kind} (junk : Nat → Nat → ℚ) {rest : Nat → DesignOracle}
    (hrest : ∀ k, UnitOracle (rest k)) (ω : Draws M K R N ks) (k : Nat) : UnitOracle (drawsOf junk rest ω k) := by
  unfold drawsOf
  split
  · exact unitOracle_oracleOf _ _
  · exact hrest k

theorem constraintOf_fixConstr (c : ConstrDict) : constraintOf (fixConstr c) = constraintOf c := by
  unfold fixConstr constraintOf
  cases hc : c.constrain <;> simp [hc]

theorem feasible_fixConstr (cs : List ConstrDict) (x : Vec) : Feasible (cs.map fixConstr) x ↔ Feasible cs x := by
  unfold Feasible
  simp only [List.forall_mem_map]
  refine forall₂_congr fun c _ => ?_
  rw [constraintOf_fixConstr]

/-- A row satisfies the constraints, if there are any. -/
def Allowed (cs : Option (List ConstrDict)) (x : Vec) : Prop := ∀ l, cs = some l → Feasible l x

theorem design_first {M N : Nat} {ks : List Kind} {ds : List Desc} {sp : Space} (h : designSpace ds none = .ok sp)
    (hb : sp.hasBandit = false) (hk : sp.kinds = ks) (junk : Nat → Nat → ℚ) (w : Fin 1 → Fin N → RawRow M ks) {Y : Mat}
    (hY : initialDesign "random" sp (oracleOf junk w) N = .ok Y) : Y = List.ofFn fun r => rawRow (w 0 r) := by
  subst hk
  obtain ⟨_, _, _, _, _, _, hc⟩ := designSpace_ok h
  have h1 : (oracleOf junk w).draws 0 = drawOf junk (w 0) := by simp [oracleOf]
  have h2 := randomNoConstr_exact h hb junk (w 0)
  simp only [initialDesign, randomDesign, Space.hasConstraints, hc, h1, Option.map_none, Option.isSome_none, if_true,
    Bool.false_eq_true, if_false, h2, Except.ok.injEq] at hY
  exact hY.symm

open Classical in
/-- The rows of a random design are the first rows drawn that satisfy the constraints. -/
theorem design_accepted {M N R : Nat} (hR : 0 < R) {ks : List Kind} {ds : List Desc} {cs : Option (List ConstrDict)}
    {sp : Space} (h : designSpace ds cs = .ok sp) (hb : sp.hasBandit = false) (hk : sp.kinds = ks)
    (hev : ∀ l, cs = some l → Evaluable sp.kinds.length l) (junk : Nat → Nat → ℚ) (w : Fin R → Fin N → RawRow M ks) {Y : Mat}
    (hY : initialDesign "random" sp (oracleOf junk w) N = .ok Y) :
    Y <+: ((List.ofFn fun i => List.ofFn (w i)).flatten.filter fun ρ => Allowed cs (rawRow ρ)).map rawRow := by
  subst hk
  obtain ⟨_, _, _, _, _, _, hc⟩ := designSpace_ok h
  cases cs with
  | none =>
    have h1 : (oracleOf junk w).draws 0 = drawOf junk (w ⟨0, hR⟩) := by simp [oracleOf, hR]
    have h2 := randomNoConstr_exact h hb junk (w ⟨0, hR⟩)
    simp only [initialDesign, randomDesign, Space.hasConstraints, hc, h1, Option.map_none, Option.isSome_none, if_true,
      Bool.false_eq_true, if_false, h2, Except.ok.injEq] at hY
    subst hY
    obtain ⟨R, rfl⟩ : ∃ R', R = R' + 1 := ⟨R - 1, by omega⟩
    have : (List.ofFn fun i => List.ofFn (w i)).flatten.filter (fun ρ => Allowed none (rawRow ρ)) =
        (List.ofFn fun i => List.ofFn (w i)).flatten := by
      rw [List.filter_eq_self]
      simp [Allowed]
    rw [this, List.ofFn_succ, List.flatten_cons, List.map_append, List.map_ofFn]
    exact List.prefix_append _ _
  | some l =>
    have h1 := constrLoop_exact h hb (hev l rfl) junk w R 0 [] Y (by omega)
    rw [List.nil_append, List.drop_zero] at h1
    have h2 := (h1.1 (by simpa [initialDesign, randomDesign, Space.hasConstraints, hc, oracleOf] using hY)).2
    have h3 : (fun ρ : RawRow M sp.kinds => decide (Allowed (some l) (rawRow ρ))) =
        fun ρ => decide (Feasible l (rawRow ρ)) := by
      funext ρ
      simp [Allowed]
    rw [h3]
    exact h2

namespace Props

/-- **C146.** The batches of the evaluator `random` (no de-duplication, no context): in iteration `k` of a completed run the
first `b - 1` of the `N` rows of the random design of this iteration are evaluated. Model, acquisition and objective may be
anything. The design is made in a space with the variables and the constraints of the space. -/
theorem C146_random_rows {config : List Desc} {cs : Option (List ConstrDict)} {sp : Space}
    (h : designSpace config cs = .ok sp) (hb : sp.hasBandit = false)
    (hs : ∀ k ∈ kindsOf config, Samplable k) (hvar : kindsOf config ≠ [])
    {N b : Nat} (hN : 0 < N) (o : Nat → DesignOracle) (ho : ∀ k, UnitOracle (o k))
    (envs : BOState → EvalEnv) (henvs : ∀ s, GoodEnv (envs s)) (env : BOEnv) (a : RunArgs) (ha : a.context = none)
    (fuel : Nat) (s s' : BOState) (why : Stop) (hrun : runOptimization (randomBO env sp b N o envs) a fuel s = (s', .done why))
    (k : Nat) (hk : k < s'.numAcq) :
    ∃ Y ds sp', designSpace ds sp.constraints = .ok sp' ∧ sp'.hasBandit = false ∧ sp'.kinds = sp.kinds ∧
      initialDesign "random" sp' (o k) N = .ok Y ∧ Y.length = N ∧ ∀ y ∈ Y.take (b - 1), y ∈ s'.X := by
  obtain ⟨obj, s0, bs, sk, s2, Y, r, -, -, hst, htr, -, hsp, -, -, rfl⟩ := runOptimization_done hrun
  obtain ⟨Y0, new, hY0, -, -⟩ := hst.Y
  obtain ⟨-, -, -, -, -, d6, -⟩ := htr.data hY0
  obtain ⟨ps, fs, rfl⟩ := hsp.frame
  have hkb : k < bs.length := by
    rw [hst.numAcq] at d6
    have hk' : k < sk.numAcq := hk
    omega
  obtain ⟨t, m, t1, t2, t3, t4⟩ := trace_suggestions htr k hkb
  rw [hst.numAcq, Nat.zero_add] at t1
  rw [hst.context, ha] at t2
  change stdSuggest sp (.random b) (drawnEnvs N o envs) false t none none = .ok m at t3
  unfold stdSuggest at t3
  rw [t2] at t3
  obtain ⟨z0, Y, ds, sp', k1, k2, k3, k4, k5, k6⟩ := randomBatch_rows h hb hs hvar (goodEnv_drawn hN ho henvs t) t3
  subst t1
  exact ⟨Y, ds, sp', k1, k2, k3, k4, k5, fun y hy => t4 y (by rw [k6]; simp [hy])⟩

open Classical in
/-- The probability that a row drawn from the domain is in `G`, given that it satisfies the constraints. -/
noncomputable def targetRatio (M : Nat) (ks : List Kind) (cs : Option (List ConstrDict)) (G : Vec → Prop) : ℝ :=
  ((Finset.univ.filter fun ρ : RawRow M ks => Allowed cs (rawRow ρ) ∧ G (rawRow ρ)).card : ℝ) /
    (Finset.univ.filter fun ρ : RawRow M ks => Allowed cs (rawRow ρ)).card

theorem targetRatio_nonneg (M : Nat) (ks : List Kind) (cs : Option (List ConstrDict)) (G : Vec → Prop) :
    0 ≤ targetRatio M ks cs G := by
  unfold targetRatio
  positivity

theorem targetRatio_le_one (M : Nat) (ks : List Kind) (cs : Option (List ConstrDict)) (G : Vec → Prop) :
    targetRatio M ks cs G ≤ 1 := by
  classical
  unfold targetRatio
  refine div_le_one_of_le₀ (Nat.cast_le.2 (Finset.card_le_card fun x hx => ?_)) (Nat.cast_nonneg _)
  simp only [Finset.mem_filter, Finset.mem_univ, true_and] at hx ⊢
  exact hx.1

theorem targetRatio_pos {M : Nat} {ks : List Kind} {cs : Option (List ConstrDict)} {G : Vec → Prop} (ρ : RawRow M ks)
    (h1 : Allowed cs (rawRow ρ)) (h2 : G (rawRow ρ)) : 0 < targetRatio M ks cs G := by
  classical
  unfold targetRatio
  refine div_pos ?_ ?_ <;>
  · rw [Nat.cast_pos, Finset.card_pos]
    exact ⟨ρ, by simp [h1, h2]⟩

open Classical in
theorem missed_rows {config : List Desc} {cs : Option (List ConstrDict)} {sp : Space}
    (h : designSpace config cs = .ok sp) (hb : sp.hasBandit = false)
    (hs : ∀ k ∈ kindsOf config, Samplable k) (hvar : kindsOf config ≠ []) (hev : ∀ l, cs = some l → Evaluable sp.kinds.length l)
    {M K R N b : Nat} (hR : 0 < R) (hN : 0 < N) (hbN : b - 1 ≤ N) (junk : Nat → Nat → ℚ) (rest : Nat → DesignOracle)
    (hrest : ∀ k, UnitOracle (rest k)) (envs : BOState → EvalEnv)
    (henvs : ∀ s, GoodEnv (envs s)) (env : BOEnv) (a : RunArgs) (ha : a.context = none)
    (fuel : Nat) (s : BOState) (G : Vec → Prop) (ω : Draws M K R N sp.kinds) (s' : BOState) (why : Stop)
    (hrun : runOptimization (randomBO env sp b N (drawsOf junk rest ω) envs) a fuel s = (s', .done why))
    (hK : K ≤ s'.numAcq) (hG : ∀ x ∈ s'.X, ¬ G x) (k : Fin K) :
    b - 1 ≤ ((List.ofFn fun i => List.ofFn (ω k i)).flatten.filter fun ρ => Allowed cs (rawRow ρ)).length ∧
      ∀ ρ ∈ ((List.ofFn fun i => List.ofFn (ω k i)).flatten.filter fun ρ => Allowed cs (rawRow ρ)).take (b - 1),
        ¬ G (rawRow ρ) := by
  obtain ⟨Y, ds, sp', k1, k2, k3, k4, k5, k6⟩ := C146_random_rows h hb hs hvar hN (drawsOf junk rest ω)
    (unitOracle_drawsOf junk hrest ω) envs henvs env a ha fuel s s' why hrun k (lt_of_lt_of_le k.2 hK)
  have hdr : drawsOf junk rest ω k = oracleOf junk (ω k) := by simp [drawsOf]
  rw [hdr] at k4
  have hcs : sp.constraints = cs.map (List.map fixConstr) := by
    obtain ⟨_, _, _, _, _, _, hc⟩ := designSpace_ok h
    exact hc
  have hall : ∀ x, Allowed sp.constraints x ↔ Allowed cs x := by
    intro x
    rw [hcs]
    cases cs with
    | none => simp [Allowed]
    | some l => simp [Allowed, feasible_fixConstr]
  have hev' : ∀ l, sp.constraints = some l → Evaluable sp.kinds.length l := by
    intro l hl
    rw [hcs] at hl
    cases cs with
    | none => simp at hl
    | some l0 =>
      simp only [Option.map_some, Option.some.injEq] at hl
      subst hl
      intro c hc
      obtain ⟨c0, hc0, rfl⟩ := List.mem_map.1 hc
      have := hev l0 rfl c0 hc0
      rwa [← constraintOf_fixConstr] at this
  have hpre := design_accepted hR k1 k2 k3 (k3 ▸ hev') junk (ω k) k4
  simp only [hall] at hpre
  generalize (List.ofFn fun i => List.ofFn (ω k i)).flatten.filter (fun ρ => decide (Allowed cs (rawRow ρ))) = l at hpre
  have hlen := hpre.length_le
  rw [k5, List.length_map] at hlen
  refine ⟨hbN.trans hlen, fun ρ hρ hGρ => hG (rawRow ρ) (k6 _ ?_) hGρ⟩
  obtain ⟨t, ht⟩ := hpre
  have : Y.take (b - 1) = (l.take (b - 1)).map rawRow := by
    rw [List.map_take, ← ht, List.take_append_of_le_length (by omega)]
  rw [this]
  exact List.mem_map_of_mem hρ

open Classical in
/-- **C146**, how often the random rows miss a region: the draws of `K` iterations with batches of `b` locations are uniform
and independent (`R` rounds of `N` rows each). The share of draws for which the run completes at least `K` iterations and
has evaluated no location of `G` is at most `(1 - γ) ^ (K * (b - 1))`, where `γ` is the share of `G` among the locations of
the domain that satisfy the constraints. Model, acquisition, objective, later draws and all other random sources may be
anything and may even depend on the draws. -/
theorem C146_missed {config : List Desc} {cs : Option (List ConstrDict)} {sp : Space}
    (h : designSpace config cs = .ok sp) (hb : sp.hasBandit = false)
    (hs : ∀ k ∈ kindsOf config, Samplable k) (hvar : kindsOf config ≠ []) (hev : ∀ l, cs = some l → Evaluable sp.kinds.length l)
    {M K R N b : Nat} (hR : 0 < R) (hN : 0 < N) (hbN : b - 1 ≤ N) (junk : Nat → Nat → ℚ) (rest : Nat → DesignOracle)
    (hrest : ∀ k, UnitOracle (rest k)) (envs : Draws M K R N sp.kinds → BOState → EvalEnv)
    (henvs : ∀ ω s, GoodEnv (envs ω s)) (env : Draws M K R N sp.kinds → BOEnv) (a : RunArgs) (ha : a.context = none)
    (fuel : Nat) (s : BOState) (G : Vec → Prop) :
    ((Finset.univ.filter fun ω : Draws M K R N sp.kinds =>
      ∃ s' why, runOptimization (randomBO (env ω) sp b N (drawsOf junk rest ω) (envs ω)) a fuel s = (s', .done why) ∧
        K ≤ s'.numAcq ∧ ∀ x ∈ s'.X, ¬ G x).card : ℝ) / Fintype.card (Draws M K R N sp.kinds) ≤
      (1 - targetRatio M sp.kinds cs G) ^ (K * (b - 1)) := by
  refine card_iterations (fun ρ : RawRow M sp.kinds => Allowed cs (rawRow ρ)) (fun ρ => G (rawRow ρ)) K R N (b - 1) _ ?_
  rintro ω ⟨s', why, hrun, hK, hG⟩ k
  exact missed_rows h hb hs hvar hev hR hN hbN junk rest hrest (envs ω) (henvs ω) (env ω) a ha fuel s G ω s' why hrun hK hG k

theorem calm_drawn {sp : Space} {b N : Nat} (hN : 0 < N) (hbN : b - 1 ≤ N) {env : BOEnv} {envs : BOState → EvalEnv}
    (hr : CalmBO sp (.random b) false { env with suggest := stdSuggest sp (.random b) envs false } envs)
    {o : Nat → DesignOracle} (ho : ∀ k, UnitOracle (o k)) :
    CalmBO sp (.random b) false (randomBO env sp b N o envs) (drawnEnvs N o envs) where
  space := hr.space
  suggest := rfl
  fit := hr.fit
  params := hr.params
  costFit := hr.costFit
  interval := hr.interval
  calm := fun s =>
    let c := hr.calm s
    { good := goodEnv_drawn hN ho (fun s => (hr.calm s).good) s
      name := c.name
      logic := c.logic
      f := c.f
      opt := c.opt
      thompson := c.thompson
      batchOpt := c.batchOpt
      batchThompson := c.batchThompson
      lp := c.lp
      lpOpt := c.lpOpt
      lpThompson := c.lpThompson
      fLP := c.fLP
      consts := c.consts }
  samples := by
    intro s n hn
    cases hn
    exact hbN
  obj := hr.obj

theorem trace_values {env : BOEnv} {f : Vec → ℚ} {mi mt : Limit} {eps : ℚ} {s s' : BOState} {bs : List (Mat × Vec)}
    (ht : Trace env (fun _ x => .ok (f x)) mi mt eps s bs s') (hY : s.Y = some (s.X.map f)) :
    s'.Y = some (s'.X.map f) := by
  induction ht with
  | nil s => exact hY
  | @cons s s1 s' m ys bs hr hsp ht ih =>
    apply ih
    obtain ⟨Y, hY0, hY1⟩ := hsp.Y
    rw [hY] at hY0
    cases hY0
    rw [hY1, hsp.X, round_values hr hsp, List.map_append]

/-- The values of a completed run are those of the objective. -/
theorem run_values {env : BOEnv} {f : Vec → ℚ} (hf : env.obj = some fun _ x => .ok (f x)) {a : RunArgs} {fuel : Nat}
    {s s' : BOState} {why : Stop} (hY : s.Y = none ∨ s.Y = some (s.X.map f))
    (h : runOptimization env a fuel s = (s', .done why)) : s'.Y = some (s'.X.map f) := by
  obtain ⟨obj, s0, bs, sk, s2, Y, r, hobj, hst0, hst, htr, -, hsp, -, -, rfl⟩ := runOptimization_done h
  rw [hf] at hobj
  cases hobj
  have h0 := values_start hY hst0
  rw [← hst.X] at h0
  obtain ⟨ps, fs, rfl⟩ := hsp.frame
  have := trace_values htr h0
  exact this

/-- **C146**, the reported optimum: an objective `f`, a domain without constraints, nothing that raises, `K` iterations and
no stop for close locations. With probability at least `1 - (1 - γ) ^ (K * (b - 1))` the run completes and reports a value
of at most `q`, where `γ` is the probability that a location drawn uniformly from the domain has a value of at most `q`. -/
theorem C146_optimum {config : List Desc} {sp : Space} (h : designSpace config none = .ok sp) (hb : sp.hasBandit = false)
    (hs : ∀ k ∈ kindsOf config, Samplable k) (hvar : kindsOf config ≠ [])
    {M K R N b : Nat} (hR : 0 < R) (hN : 0 < N) (hb1 : 1 ≤ b) (hbN : b - 1 ≤ N) (junk : Nat → Nat → ℚ)
    (rest : Nat → DesignOracle) (hrest : ∀ k, UnitOracle (rest k)) (envs : Draws M K R N sp.kinds → BOState → EvalEnv)
    (env : Draws M K R N sp.kinds → BOEnv)
    (hr : ∀ ω, CalmBO sp (.random b) false { env ω with suggest := stdSuggest sp (.random b) (envs ω) false } (envs ω))
    (f : Vec → ℚ) (hf : ∀ ω, (env ω).obj = some fun _ x => .ok (f x))
    (a : RunArgs) (ha : a.context = none) (hK : a.maxIter = some (.fin K)) (ht : a.maxTime = none) (heps : a.eps < 0)
    (fuel : Nat) (hfuel : K < fuel) (s : BOState) (hne : s.X ≠ []) (hX : ∀ x ∈ s.X, ObjDomain sp.kinds x)
    (hY : s.Y = none ∨ s.Y = some (s.X.map f)) (hc : SoundCost s.cost) (q : ℚ) :
    open Classical in
    1 - (1 - targetRatio M sp.kinds none fun x => f x ≤ q) ^ (K * (b - 1)) ≤
      ((Finset.univ.filter fun ω : Draws M K R N sp.kinds =>
        ∃ s' r, runOptimization (randomBO (env ω) sp b N (drawsOf junk rest ω) (envs ω)) a fuel s = (s', .done .limit) ∧
          s'.numAcq = K ∧ s'.results = some r ∧ r.fxOpt ≤ q).card : ℝ) / Fintype.card (Draws M K R N sp.kinds) := by
  classical
  have hmiss := C146_missed h hb hs hvar (by simp) hR hN hbN junk rest hrest envs (fun ω s => ((hr ω).calm s).good) env a
    ha fuel s fun x => f x ≤ q
  have hrun : ∀ ω : Draws M K R N sp.kinds, ∃ s' r,
      runOptimization (randomBO (env ω) sp b N (drawsOf junk rest ω) (envs ω)) a fuel s = (s', .done .limit) ∧
      s'.numAcq = K ∧ s'.results = some r ∧ ∀ x ∈ s'.X, r.fxOpt ≤ f x := by
    intro ω
    have hcalm := calm_drawn hN hbN (hr ω) (unitOracle_drawsOf junk hrest ω)
    have hYl : ∀ Y, s.Y = some Y → Y.length = s.X.length := by
      rintro Y hY'
      rcases hY with hY | hY <;> rw [hY] at hY'
      · cases hY'
      · cases hY'
        simp
    rcases C140_run_completes h hb hs hvar (by simpa [GoodEvaluator] using hb1) hcalm (.inl rfl) a (by simp [ValidContext, ha]) K hK ht
      fuel hfuel s hne hX hYl hc with ⟨h1, h2⟩ | ⟨-, h2⟩
    · rcases hx : runOptimization (randomBO (env ω) sp b N (drawsOf junk rest ω) (envs ω)) a fuel s with ⟨s', w⟩
      rw [hx] at h1 h2
      simp only at h1 h2
      subst h1
      obtain ⟨r, Y, i, r1, r2, r3, -⟩ := C39_reported_optimum _ a fuel s s' _ hx
      have hv := run_values (env := randomBO (env ω) sp b N (drawsOf junk rest ω) (envs ω)) (hf ω) hY hx
      rw [r2] at hv
      cases hv
      refine ⟨s', r, rfl, ?_, r1, fun x hx => r3.2 _ (List.mem_map_of_mem hx)⟩
      rcases h2 with h2 | ⟨pre, u, v, -, h2⟩
      · exact h2
      · have := Real.sqrt_nonneg ((List.zipWith (fun u v : ℚ => ((u : ℝ) - v) ^ 2) v u).sum)
        have : (a.eps : ℝ) < 0 := by exact_mod_cast heps
        linarith
    · simp at h2
  have hsplit := Finset.card_filter_add_card_filter_not (s := (Finset.univ : Finset (Draws M K R N sp.kinds))) fun ω =>
    ∃ s' r, runOptimization (randomBO (env ω) sp b N (drawsOf junk rest ω) (envs ω)) a fuel s = (s', .done .limit) ∧
      s'.numAcq = K ∧ s'.results = some r ∧ r.fxOpt ≤ q
  rw [Finset.card_univ] at hsplit
  have hle : (Finset.univ.filter fun ω : Draws M K R N sp.kinds => ¬
      ∃ s' r, runOptimization (randomBO (env ω) sp b N (drawsOf junk rest ω) (envs ω)) a fuel s = (s', .done .limit) ∧
        s'.numAcq = K ∧ s'.results = some r ∧ r.fxOpt ≤ q).card ≤ (Finset.univ.filter fun ω : Draws M K R N sp.kinds =>
      ∃ s' why, runOptimization (randomBO (env ω) sp b N (drawsOf junk rest ω) (envs ω)) a fuel s = (s', .done why) ∧
        K ≤ s'.numAcq ∧ ∀ x ∈ s'.X, ¬ f x ≤ q).card := by
    refine Finset.card_le_card fun ω hω => ?_
    simp only [Finset.mem_filter, Finset.mem_univ, true_and] at hω ⊢
    obtain ⟨s', r, h1, h2, h3, h4⟩ := hrun ω
    exact ⟨s', _, h1, h2.ge, fun x hx hfx => hω ⟨s', r, h1, h2, h3, (h4 x hx).trans hfx⟩⟩
  rcases isEmpty_or_nonempty (RawRow M sp.kinds) with he | he
  · have h0 : targetRatio M sp.kinds none (fun x => f x ≤ q) = 0 := by simp [targetRatio]
    rw [h0, sub_zero, one_pow, sub_self]
    positivity
  · have htot : (0 : ℝ) < Fintype.card (Draws M K R N sp.kinds) := by
      rw [Nat.cast_pos]
      exact Fintype.card_pos
    rw [le_div_iff₀ htot]
    rw [div_le_iff₀ htot] at hmiss
    have h1 : (_ : ℝ) ≤ _ := le_trans (Nat.cast_le.2 hle) hmiss
    have h2 := congrArg (Nat.cast : Nat → ℝ) hsplit
    push_cast at h2
    linarith

/-- **C146**, consistency: if a location of the grid of `M` steps has a value of at most `q` and batches have at least two
locations, then enough iterations report a value of at most `q` with a probability as close to one as wanted, whatever the
model and the acquisition suggest. -/
theorem C146_consistent {config : List Desc} {sp : Space} (h : designSpace config none = .ok sp)
    (hb : sp.hasBandit = false) (hs : ∀ k ∈ kindsOf config, Samplable k) (hvar : kindsOf config ≠ [])
    {M R N b : Nat} (hR : 0 < R) (hN : 0 < N) (hb2 : 2 ≤ b) (hbN : b - 1 ≤ N) (f : Vec → ℚ) (q : ℚ)
    (ρ : RawRow M sp.kinds) (hρ : f (rawRow ρ) ≤ q) (δ : ℝ) (hδ : 0 < δ) :
    ∃ K0, ∀ K ≥ K0, ∀ (junk : Nat → Nat → ℚ) (rest : Nat → DesignOracle), (∀ k, UnitOracle (rest k)) →
      ∀ (envs : Draws M K R N sp.kinds → BOState → EvalEnv) (env : Draws M K R N sp.kinds → BOEnv),
      (∀ ω, CalmBO sp (.random b) false { env ω with suggest := stdSuggest sp (.random b) (envs ω) false } (envs ω)) →
      (∀ ω, (env ω).obj = some fun _ x => .ok (f x)) →
      ∀ (a : RunArgs), a.context = none → a.maxIter = some (.fin K) → a.maxTime = none → a.eps < 0 →
      ∀ fuel > K, ∀ (s : BOState), s.X ≠ [] → (∀ x ∈ s.X, ObjDomain sp.kinds x) →
      (s.Y = none ∨ s.Y = some (s.X.map f)) → SoundCost s.cost →
      open Classical in
      1 - δ ≤ ((Finset.univ.filter fun ω : Draws M K R N sp.kinds =>
        ∃ s' r, runOptimization (randomBO (env ω) sp b N (drawsOf junk rest ω) (envs ω)) a fuel s = (s', .done .limit) ∧
          s'.numAcq = K ∧ s'.results = some r ∧ r.fxOpt ≤ q).card : ℝ) / Fintype.card (Draws M K R N sp.kinds) := by
  set γ := targetRatio M sp.kinds none fun x => f x ≤ q with hγ
  have h1 : 0 < γ := targetRatio_pos ρ (by simp [Allowed]) hρ
  have h2 : γ ≤ 1 := targetRatio_le_one _ _ _ _
  obtain ⟨K0, hK0⟩ := exists_pow_lt_of_lt_one hδ (show 1 - γ < 1 by linarith)
  refine ⟨K0, fun K hK junk rest hrest envs env hr hf a ha hmi hmt heps fuel hfuel s hne hX hY hc => ?_⟩
  refine le_trans ?_ (C146_optimum h hb hs hvar hR hN (by omega) hbN junk rest hrest envs env hr f hf a ha hmi hmt heps fuel
    hfuel s hne hX hY hc q)
  rw [← hγ]
  have h3 : (1 - γ) ^ (K * (b - 1)) ≤ (1 - γ) ^ K0 := by
    apply pow_le_pow_of_le_one (by linarith) (by linarith)
    calc K0 ≤ K * 1 := by omega
      _ ≤ K * (b - 1) := Nat.mul_le_mul_left _ (by omega)
  linarith

/-- **C146**, what de-duplication changes: the batch is the optimum of the acquisition (left out if it is the origin) and
after it the smallest sampled locations, in lexicographic order, that are neither known nor this optimum. -/
theorem C146_dedup_rows {config : List Desc} {cs : Option (List ConstrDict)} {sp : Space}
    (h : designSpace config cs = .ok sp) (hb : sp.hasBandit = false)
    (hs : ∀ k ∈ kindsOf config, Samplable k) (hvar : kindsOf config ≠ [])
    {env : EvalEnv} (henv : GoodEnv env) {n : Nat} (hn : 2 ≤ n) {X : Mat} {pending ignored : Option Mat} {m : Mat}
    (hm : computeNext (.random n) env sp none true X pending ignored = .ok m) :
    ∃ (c : Ctx) (z0 : Vec) (v0 : ℚ) (head S Y : Mat) (ds : List Desc) (sp' : Space), contextManager sp none = .ok c ∧
      ObjDomain sp.kinds z0 ∧
      acqOptimize sp c (some (dupMgr X pending ignored)) env.op env.oracle.acq env.f = .ok (encodeRow sp.kinds z0, v0) ∧
      head = (if ∃ v ∈ encodeRow sp.kinds z0, v ≠ 0 then [z0] else []) ∧
      designSpace ds sp.constraints = .ok sp' ∧ sp'.hasBandit = false ∧ sp'.kinds = sp.kinds ∧
      initialDesign "random" sp' env.oracle.batch.design env.numSamplesRandom = .ok Y ∧ S.Pairwise (· < ·) ∧
      (∀ x, x ∈ S ↔ x ∈ Y ∧ x ∉ (dupMgr X pending ignored).points ∧ x ∉ head) ∧
      m = head ++ S.take (n - head.length) := by
  obtain ⟨c, z0, v0, head, Y, ds, sp', c1, c2, c3, h1, h2, h3, h4, h5, h6⟩ := randomBatch_dedup h hb hs hvar henv hn hm
  refine ⟨c, z0, v0, head, _, Y, ds, sp', c1, c2, c3, ?_, h2, h3, h4, h5, ?_, ?_, h6⟩
  · rw [h1]
    congr 1
    simp [npAny]
  · exact ((sortedUnique_pairwise Y).sublist List.filter_sublist).sublist List.filter_sublist
  · intro x
    simp only [List.mem_filter, mem_sortedUnique, decide_eq_true_eq, InDup, Option.some.injEq, exists_eq_left', and_assoc]

/-- **C146**, with de-duplication the batches stay low: if the samples contain `n` unknown locations of a set `L` that lies
below its complement, then no row of the batch but one leaves `L`. -/
theorem C146_dedup_low {config : List Desc} {cs : Option (List ConstrDict)} {sp : Space}
    (h : designSpace config cs = .ok sp) (hb : sp.hasBandit = false)
    (hs : ∀ k ∈ kindsOf config, Samplable k) (hvar : kindsOf config ≠ [])
    {env : EvalEnv} (henv : GoodEnv env) {n : Nat} (hn : 2 ≤ n) {X : Mat} {pending ignored : Option Mat} {m : Mat}
    (hm : computeNext (.random n) env sp none true X pending ignored = .ok m) (L : Vec → Prop)
    (hL : ∀ x y, L x → ¬ L y → x < y) :
    ∃ z0 Y ds sp', designSpace ds sp.constraints = .ok sp' ∧ sp'.kinds = sp.kinds ∧
      initialDesign "random" sp' env.oracle.batch.design env.numSamplesRandom = .ok Y ∧
      ((∃ T : Mat, T.Nodup ∧ T.length = n ∧ ∀ x ∈ T, L x ∧ x ∈ Y ∧ x ∉ (dupMgr X pending ignored).points) →
        ∀ x ∈ m, x = z0 ∨ L x) := by
  obtain ⟨c, z0, v0, head, S, Y, ds, sp', -, -, -, h1', h2, -, h3, h4, h5, h6, h7⟩ := C146_dedup_rows h hb hs hvar henv hn hm
  have h1 : head = [] ∨ ∃ z0, head = [z0] := by
    split_ifs at h1'
    · exact .inr ⟨z0, h1'⟩
    · exact .inl h1'
  have hlen : head.length ≤ 1 := by rcases h1 with rfl | ⟨z, rfl⟩ <;> simp
  refine ⟨head.headD [], Y, ds, sp', h2, h3, h4, ?_⟩
  rintro ⟨T, hT, hTl, hTm⟩ x hx
  rw [h7] at hx
  rcases List.mem_append.1 hx with hx | hx
  · left
    rcases h1 with rfl | ⟨z, rfl⟩
    · simp at hx
    · simpa using hx
  · right
    by_contra hLx
    obtain ⟨i, hi, hxi⟩ := List.mem_iff_getElem.1 hx
    rw [List.getElem_take] at hxi
    have hiS : i < S.length := by
      simp only [List.length_take] at hi
      omega
    have hin : i < n - head.length := by
      simp only [List.length_take] at hi
      omega
    have hsub : (T.filter fun y => y ∉ head) ⊆ S.take i := by
      intro y hy
      obtain ⟨y1, y2⟩ := List.mem_filter.1 hy
      obtain ⟨y3, y4, y5⟩ := hTm y y1
      have hyS : y ∈ S := (h6 y).2 ⟨y4, y5, by simpa using y2⟩
      obtain ⟨j, hj, hyj⟩ := List.mem_iff_getElem.1 hyS
      have hlt : y < x := hL y x y3 hLx
      have hji : j < i := by
        by_contra hge
        rcases Nat.lt_or_ge i j with hij | hij
        · have := List.pairwise_iff_getElem.1 h5 i j hiS hj hij
          rw [hxi, hyj] at this
          exact absurd hlt (not_lt.2 this.le)
        · have : i = j := by omega
          subst this
          rw [hxi] at hyj
          exact absurd hlt (by rw [hyj]; exact lt_irrefl _)
      exact List.mem_take_iff_getElem.2 ⟨j, by omega, hyj⟩
    have hcard := ((hT.filter fun y => decide (y ∉ head)).subperm hsub).length_le
    rw [List.length_take] at hcard
    have hfl : n - head.length ≤ (T.filter fun y => y ∉ head).length := by
      rcases h1 with rfl | ⟨z, rfl⟩
      · simp [hTl]
      · have he : (T.filter fun y => y ∉ [z]) = T.erase z := by
          rw [hT.erase_eq_filter]
          refine List.filter_congr fun y _ => ?_
          simp [bne, Bool.beq_eq_decide_eq]
        have hl := List.length_erase (a := z) (l := T)
        rw [he, hl]
        simp only [List.length_cons, List.length_nil]
        split_ifs <;> omega
    omega


/-- outcomes of one discrete variable -/
theorem card_discrete (M : Nat) (l : List ℚ) (P : Vec → Prop) [DecidablePred P] :
    (Finset.univ.filter fun ρ : RawRow M [.discrete l] => P (rawRow ρ)).card =
      ((Finset.univ : Finset (Fin l.length)).filter fun i => P [l.get i]).card := by
  have hr : ∀ ρ : RawRow M [.discrete l], rawRow ρ = [l.get (ρ 0)] := by
    intro ρ
    have h0 : (ρ 0 : Nat) < l.length := (ρ 0).2
    have : rawValue M (.discrete l) (ρ 0) = l[(ρ 0 : Nat)] := by simp [rawValue, h0]
    show [rawValue M (.discrete l) (ρ 0)] = _
    rw [this]
    rfl
  refine Finset.card_bij' (fun ρ _ => ρ 0) (fun i _ => fun j => ⟨i, by
    have : j = 0 := Fin.fin_one_eq_zero j
    subst this
    exact i.2⟩) ?_ ?_ ?_ ?_
  · intro ρ hρ
    rw [Finset.mem_filter_univ, hr] at hρ
    exact (Finset.mem_filter_univ _).2 hρ
  · intro i hi
    simp only [Finset.mem_filter, Finset.mem_univ, true_and] at hi ⊢
    rw [hr]
    exact hi
  · intro ρ _
    funext j
    have : j = 0 := Fin.fin_one_eq_zero j
    subst this
    rfl
  · intro i _
    rfl

/-- an acquisition with its optimum at 1; the batch samples `N` rows from `o` -/
def exLow (N : Nat) (o : DesignOracle) : EvalEnv :=
  { exEnv with
    f := fun x => .ok ((x.headD 0 - 1) ^ 2)
    numSamplesRandom := N
    oracle := ⟨exAcq, { exAcq with design := o }⟩ }

theorem exLow_good {N : Nat} (hN : 0 < N) {o : DesignOracle} (ho : UnitOracle o) : GoodEnv (exLow N o) :=
  ⟨⟨by simp [exLow, exEnv], by simp [exLow, exEnv], by simp [exLow, exEnv]⟩, exAcq_good,
    ⟨ho, exAcq_good.argsort, exAcq_good.thompson, exAcq_good.opt⟩, hN, by simp [exLow, exEnv]⟩

/-- **C146**, why the bound is for runs without de-duplication: with it, the more samples the less likely are large
locations. Domain `0, 1, 2, 3` of which `0` is known, two locations per batch, the acquisition suggests `1`. A quarter of the
rows drawn is `3`, but the share of draws for which `3` is suggested is at most `(3/4)^N` with `N` samples (the code uses
10000). Without de-duplication it is at least a quarter (`C146_missed`). -/
theorem C146_dedup_counterexample : ∃ sp, designSpace (exGrid 4) none = .ok sp ∧
    (∀ M, targetRatio M sp.kinds none (fun x => x = [3]) = 1 / 4) ∧
    ∀ (M N : Nat) (_ : 0 < N) (junk : Nat → Nat → ℚ),
      open Classical in
      ((Finset.univ.filter fun w : Fin 1 → Fin N → RawRow M sp.kinds =>
        ∃ m, computeNext (.random 2) (exLow N (oracleOf junk w)) sp none true [[0]] none none = .ok m ∧ [3] ∈ m).card : ℝ) /
        Fintype.card (Fin 1 → Fin N → RawRow M sp.kinds) ≤ (3 / 4) ^ N := by
  classical
  obtain ⟨sp, h⟩ : ∃ sp, designSpace (exGrid 4) none = .ok sp := ⟨_, rfl⟩
  have hk : sp.kinds = [.discrete [0, 1, 2, 3]] := by
    rw [space_kinds_eq h]; decide +kernel
  have hb : sp.hasBandit = false := by
    have : (designSpace (exGrid 4) none).map Space.hasBandit = .ok false := by decide +kernel
    rw [h] at this
    simpa [Except.map] using this
  have hcard : ∀ (M : Nat) (P : Vec → Prop) [DecidablePred P],
      (Finset.univ.filter fun ρ : RawRow M sp.kinds => P (rawRow ρ)).card =
      ((Finset.univ : Finset (Fin 4)).filter fun i => P [([0, 1, 2, 3] : List ℚ).get i]).card := by
    intro M P _
    rw [hk]
    exact card_discrete M [0, 1, 2, 3] P
  have hall : ∀ M, Fintype.card (RawRow M sp.kinds) = 4 := by
    intro M
    have := hcard M fun _ => True
    simpa using this
  refine ⟨sp, h, fun M => ?_, fun M N hN junk => ?_⟩
  · unfold targetRatio
    simp only [Allowed, reduceCtorEq, false_implies, implies_true, true_and, Finset.filter_true, Finset.card_univ, hall]
    have := hcard M fun x => x = [3]
    rw [this]
    have : ((Finset.univ : Finset (Fin 4)).filter fun i => [([0, 1, 2, 3] : List ℚ).get i] = [3]).card = 1 := by
      decide +kernel
    rw [this]
    norm_num
  · have hsub : ∀ w : Fin 1 → Fin N → RawRow M sp.kinds,
        (∃ m, computeNext (.random 2) (exLow N (oracleOf junk w)) sp none true [[0]] none none = .ok m ∧ [3] ∈ m) →
        ∀ k j, rawRow (w k j) ≠ [2] := by
      rintro w ⟨m, hm, h3⟩ k j hkj
      have hs : ∀ k ∈ kindsOf (exGrid 4), Samplable k := by
        rw [← space_kinds_eq h, hk]
        simp [Samplable]
      have hvar : kindsOf (exGrid 4) ≠ [] := by
        rw [← space_kinds_eq h, hk]
        simp
      obtain ⟨c, z0, v0, head, S, Y, ds, sp', c1, c2, c3, h1, h2, hb', hk', h4, h5, h6, h7⟩ :=
        C146_dedup_rows h hb hs hvar (exLow_good hN (unitOracle_oracleOf junk w)) le_rfl hm
      have hz0 : z0 = [1] := by
        have hd : (designSpace (exGrid 4) none).bind (fun sp => (contextManager sp none).bind fun c =>
            (acqOptimize sp c (some (dupMgr [[0]] none none)) exEnv.op exAcq fun x => .ok ((x.headD 0 - 1) ^ 2)).map
              Prod.fst) = .ok [1] := by
          decide +kernel
        have hc3 : acqOptimize sp c (some (dupMgr [[0]] none none)) exEnv.op exAcq (fun x => .ok ((x.headD 0 - 1) ^ 2)) =
          .ok (encodeRow sp.kinds z0, v0) := c3
        simp only [h, c1, hc3, Except.bind, Except.map, Except.ok.injEq] at hd
        rw [hk] at c2 hd
        cases c2 with
        | cons a1 a2 =>
          cases a2
          simpa [encodeRow, encodeVal] using hd
      subst hz0
      have hhead : head = [[1]] := by
        rw [h1, hk]
        decide +kernel
      subst hhead
      have hY : [2] ∈ Y := by
        obtain ⟨_, _, _, _, _, _, hc⟩ := designSpace_ok h
        rw [hc] at h2
        have := design_first h2 hb' hk' junk w h4
        rw [this, List.mem_ofFn]
        have : k = 0 := Fin.fin_one_eq_zero k
        subst this
        exact ⟨j, hkj⟩
      have h2S : [2] ∈ S := (h6 [2]).2 ⟨hY, by decide +kernel, by decide +kernel⟩
      rw [h7] at h3
      simp only [List.length_cons, List.length_nil, List.cons_append, List.nil_append, List.mem_cons] at h3
      rcases h3 with h3 | h3
      · exact absurd h3 (by decide +kernel)
      · cases S with
        | nil => simp at h2S
        | cons u S =>
          simp only [Nat.reduceAdd, Nat.reduceSub, List.take_succ_cons, List.take_zero, List.mem_singleton] at h3
          subst h3
          rcases List.mem_cons.1 h2S with e | e
          · exact absurd e (by decide +kernel)
          · have := (List.pairwise_cons.1 h5).1 _ e
            exact absurd this (by decide +kernel)
    have h3 : (Finset.univ.filter fun ρ : RawRow M sp.kinds => rawRow ρ ≠ [2]).card = 3 := by
      rw [hcard M fun x => x ≠ [2]]
      decide +kernel
    have hle : (Finset.univ.filter fun w : Fin 1 → Fin N → RawRow M sp.kinds =>
        ∃ m, computeNext (.random 2) (exLow N (oracleOf junk w)) sp none true [[0]] none none = .ok m ∧ [3] ∈ m).card ≤
        3 ^ N := by
      have hc : (Fintype.piFinset fun _ : Fin 1 => Fintype.piFinset fun _ : Fin N =>
          Finset.univ.filter fun ρ : RawRow M sp.kinds => rawRow ρ ≠ [2]).card = 3 ^ N := by
        rw [Fintype.card_piFinset_const, Fintype.card_piFinset_const, h3, pow_one]
      rw [← hc]
      refine Finset.card_le_card fun w hw => ?_
      rw [Finset.mem_filter_univ] at hw
      rw [Fintype.mem_piFinset]
      intro k
      rw [Fintype.mem_piFinset]
      exact fun j => (Finset.mem_filter_univ _).2 (hsub w hw k j)
    have hT : (Fintype.card (Fin 1 → Fin N → RawRow M sp.kinds) : ℝ) = 4 ^ N := by
      simp only [Fintype.card_pi, Finset.prod_const, Finset.card_univ, Fintype.card_fin, hall]
      push_cast
      rw [pow_one]
    rw [hT, div_pow]
    gcongr
    exact_mod_cast hle

/-- The hypotheses of `C146_optimum` and `C146_consistent` are met by an acquisition that always suggests the same location. -/
theorem exSearch_calm (sp : Space) :
    CalmBO sp (.random 2) false { exSearch sp with suggest := stdSuggest sp (.random 2) (fun _ => exEnv) false }
      (fun _ => exEnv) where
  space := rfl
  suggest := rfl
  fit := fun _ _ _ => rfl
  params := fun _ => ⟨_, rfl⟩
  costFit := fun _ => rfl
  interval := by show (2 : Int) ≠ 0; decide
  calm := fun _ => {
    good := ⟨⟨by decide, by decide, by decide⟩, exAcq_good, exAcq_good, by decide, by decide⟩
    name := by simp [exEnv]
    logic := by simp [exEnv]
    f := fun _ => ⟨_, rfl⟩
    opt := fun _ _ _ => ⟨_, rfl⟩
    thompson := fun _ => ⟨_, rfl⟩
    batchOpt := fun _ _ _ => ⟨_, rfl⟩
    batchThompson := fun _ => ⟨_, rfl⟩
    lp := fun _ => exAcq_good
    lpOpt := fun _ _ _ _ => ⟨_, rfl⟩
    lpThompson := fun _ _ => ⟨_, rfl⟩
    fLP := fun _ _ => ⟨_, rfl⟩
    consts := ⟨_, rfl⟩ }
  samples := by
    intro s n hn
    cases hn
    decide
  obj := ⟨_, rfl, fun _ _ _ => ⟨_, rfl⟩⟩

/-- The optimum of `(x - 2)²` on `0, 1, 2, 3` is reported with a probability of at least `1 - (3/4)^K` after `K` iterations. -/
example (K : Nat) {sp : Space} (h : designSpace (exGrid 4) none = .ok sp) :
    open Classical in
    1 - (3 / 4 : ℝ) ^ K ≤ ((Finset.univ.filter fun ω : Draws 1 K 1 5 sp.kinds =>
      ∃ s' r, runOptimization (randomBO (exSearch sp) sp 2 5 (drawsOf (fun _ _ => 0) (fun _ => exOracle) ω) fun _ => exEnv)
        { maxIter := some (.fin K), maxTime := none, eps := -1 } (K + 1) (boInit [[0]] none .none) = (s', .done .limit) ∧
        s'.numAcq = K ∧ s'.results = some r ∧ r.fxOpt ≤ 0).card : ℝ) / Fintype.card (Draws 1 K 1 5 sp.kinds) := by
  have hk : sp.kinds = [.discrete [0, 1, 2, 3]] := by
    rw [space_kinds_eq h]; decide +kernel
  have hb : sp.hasBandit = false := by
    have : (designSpace (exGrid 4) none).map Space.hasBandit = .ok false := by decide +kernel
    rw [h] at this
    simpa [Except.map] using this
  have hγ : targetRatio 1 sp.kinds none (fun x => (x.headD 0 - 2) ^ 2 ≤ 0) = 1 / 4 := by
    classical
    unfold targetRatio
    simp only [Allowed, reduceCtorEq, false_implies, implies_true, true_and, Finset.filter_true, Finset.card_univ]
    have h1 := card_discrete 1 [0, 1, 2, 3] fun x => (x.headD 0 - 2) ^ 2 ≤ 0
    have h2 := card_discrete 1 [0, 1, 2, 3] fun _ => True
    rw [← hk] at h1 h2
    simp only [Finset.filter_true, Finset.card_univ] at h2
    rw [h1, h2]
    have : ((Finset.univ : Finset (Fin 4)).filter fun i =>
      (([([0, 1, 2, 3] : List ℚ).get i] : Vec).headD 0 - 2) ^ 2 ≤ 0).card = 1 := by decide +kernel
    rw [show ((Finset.univ : Finset (Fin [(0 : ℚ), 1, 2, 3].length)).filter fun i =>
      (([([0, 1, 2, 3] : List ℚ).get i] : Vec).headD 0 - 2) ^ 2 ≤ 0).card = 1 from this]
    simp
  have := C146_optimum (M := 1) (K := K) (R := 1) (N := 5) (b := 2) h hb (by
      rw [← space_kinds_eq h, hk]
      simp [Samplable]) (by
      rw [← space_kinds_eq h, hk]
      simp) (by omega) (by omega) (by omega) (by omega) (fun _ _ => 0) (fun _ => exOracle) (fun _ => exOracle_unit)
    (fun _ _ => exEnv) (fun _ => exSearch sp) (fun _ => exSearch_calm sp) (fun x => (x.headD 0 - 2) ^ 2) (fun _ => rfl)
    { maxIter := some (.fin K), maxTime := none, eps := -1 } rfl rfl rfl (by norm_num) (K + 1) (by omega)
    (boInit [[0]] none .none) (by simp [boInit]) (by
      rw [hk]
      simp [boInit, ObjDomain, ValidObj]) (by left; rfl) (by simp [SoundCost, boInit, costModelInit]) 0
  rw [hγ] at this
  norm_num at this ⊢
  exact this

/-- The suggestions of the counterexample, without and with de-duplication: samples `3, 3, 2, 3`. -/
example : ((designSpace (exGrid 4) none).map fun sp => [false, true].map fun deDup =>
      computeNext (.random 2) (exLow 4 {
          draws := fun _ => { junk := fun _ _ => 0, choice := fun _ r => if r = 2 then 2 else 3, unif := fun _ _ => 0 }
          lhs := fun _ _ => 0
          sobol := fun _ _ => 0
          fuel := 1 }) sp none deDup [[0]] none none)
    = .ok [.ok [[0], [3]], .ok [[1], [2]]] := by
  decide +kernel

end Props

end GPyOpt
