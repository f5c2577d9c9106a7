import Verif.Props.Batch

/-!
# C165: a larger batch extends a smaller one

With the same random numbers, a batch of `n` locations starts with the batch of `m ≤ n` locations that the same evaluator gives;
so asking for more locations at once never takes one away. The batch of one location is that of the sequential evaluator.
-/

namespace GPyOpt.Props

open GPyOpt Spec

/-- The evaluators that `BayesianOptimization` knows by name, as functions of the batch size. -/
inductive BatchKind
  | random
  | thompson
  | localPenalization

/-- The evaluator for a batch size. -/
def BatchKind.of : BatchKind → Nat → Evaluator
  | .random, n => .random n
  | .thompson, n => .thompson n
  | .localPenalization, n => .localPenalization n

theorem mapE_take {α β : Type} {f : α → Py β} {l : List α} {r : List β} (h : mapE f l = .ok r) (i : Nat) :
    mapE f (l.take i) = .ok (r.take i) := by
  induction l generalizing r i with
  | nil =>
    simp only [mapE_nil, Except.ok.injEq] at h
    subst h
    simp
  | cons a l ih =>
    obtain ⟨b, bs, h1, h2, rfl⟩ := mapE_cons_ok.1 h
    cases i with
    | zero => simp
    | succ i => exact mapE_cons_ok.2 ⟨b, bs.take i, h1, ih h2 i, rfl⟩

theorem mapE_prefix {α β : Type} {f : α → Py β} {l l' : List α} {r' : List β} (h : mapE f l' = .ok r') (hl : l <+: l') :
    ∃ r, mapE f l = .ok r ∧ r <+: r' := by
  rw [List.prefix_iff_eq_take.1 hl]
  exact ⟨_, mapE_take h _, List.take_prefix _ _⟩

theorem zipInputs_prefix {sp : Space} {b b' z' : Mat} (hne : b ≠ []) (hb : b <+: b') (h : sp.zipInputs b' = .ok z') :
    ∃ z, sp.zipInputs b = .ok z ∧ z <+: z' := by
  unfold Space.zipInputs at h ⊢
  split_ifs at h ⊢ with hband
  · simp only [Except.ok.injEq] at h
    subst h
    exact ⟨b, rfl, hb⟩
  · obtain ⟨r', h1, rfl⟩ := Except_map_eq_ok.1 h
    obtain ⟨r, h2, h3⟩ := mapE_prefix h1 hb
    have hr : r ≠ [] := by
      intro hr
      have := mapE_length h2
      rw [hr] at this
      exact hne (List.length_eq_zero_iff.1 this.symm)
    have hr' : r' ≠ [] := fun e => hr (List.prefix_nil.1 (e ▸ h3))
    refine ⟨r, ?_, ?_⟩
    · rw [h2]
      cases r with
      | nil => exact absurd rfl hr
      | cons => rfl
    · cases r' with
      | nil => exact absurd rfl hr'
      | cons => exact h3

/-- Fewer anchor points are the first of more anchor points. -/
theorem anchorPoints_take {sp : Space} {ctx : Option Ctx} {dup : Option DupMgr} {unique : Bool} {t : String}
    {n a b : Nat} {o : DesignOracle} {score : Mat → Py (List ℚ)} {argsort : List ℚ → List Nat} {A : Mat} (hab : a ≤ b)
    (h : anchorPoints sp ctx dup unique t n b o score argsort = .ok A) :
    anchorPoints sp ctx dup unique t n a o score argsort = .ok (A.take a) := by
  unfold anchorPoints at h ⊢
  split at h
  · simp at h
  split at h
  · simp at h
  dsimp only at h ⊢
  split_ifs at h ⊢ with hne
  split at h
  · simp at h
  next scores _ =>
  have := mapE_take h a
  rwa [List.take_take, show min a (min scores.length b) = min scores.length a by omega] at this

/-- Anchor points are not flagged as duplicates. -/
theorem anchorPoints_fresh {sp : Space} {ctx : Option Ctx} {dm : DupMgr} {unique : Bool} {t : String}
    {n a : Nat} {o : DesignOracle} {score : Mat → Py (List ℚ)} {argsort : List ℚ → List Nat} {A : Mat}
    (h : anchorPoints sp ctx (some dm) unique t n a o score argsort = .ok A) {x : Vec} (hx : x ∈ A) {z : Vec}
    (hz : zipTuple sp x = .ok z) : z ∉ dm.points := by
  unfold anchorPoints at h
  split at h
  · simp at h
  next X _ =>
  split at h
  · simp at h
  next flags hfl =>
  dsimp only at h
  split_ifs at h with hne
  split at h
  · simp at h
  obtain ⟨i, _, hi⟩ := mapE_ok_mem h hx
  have hmem : x ∈ nonDuplicates X flags := List.mem_of_getElem? (npGet_ok.1 hi)
  unfold nonDuplicates at hmem
  obtain ⟨⟨y, fl⟩, hp, hp2⟩ := List.mem_filterMap.1 hmem
  cases fl with
  | true => simp at hp2
  | false =>
    simp only [Bool.false_eq_true, if_false, Option.some.injEq] at hp2
    subst hp2
    have hd : isDup (some dm) sp y = .ok false := by
      obtain ⟨j, hj⟩ := List.mem_iff_getElem?.1 hp
      rw [List.getElem?_zip_eq_some] at hj
      have := mapE_eq_ok.1 hfl
      have hl := this.length_eq
      obtain ⟨hj1, hj2⟩ := List.getElem?_eq_some_iff.1 hj.1
      obtain ⟨hj3, hj4⟩ := List.getElem?_eq_some_iff.1 hj.2
      have := List.Forall₂.get this hj1 hj3
      simp only [List.get_eq_getElem] at this
      rw [hj2, hj4] at this
      exact this
    unfold isDup DupMgr.isUnzippedDup at hd
    obtain ⟨m, hm, hm2⟩ := Except_map_eq_ok.1 hd
    unfold zipTuple at hz
    rw [hm] at hz
    simp only [Except_map_ok, Except.ok.injEq] at hz
    subst hz
    simpa [DupMgr.isZippedDup] using hm2

theorem batchLoop_extends {sp : Space} {opt : Nat → Vec → Py Vec} {n : Nat} {as : Mat} {k : Nat} {batch : Mat}
    {seen : List Vec} {b : Mat} (h : batchLoop sp opt n k as batch seen = .ok b) : batch <+: b := by
  induction as generalizing k batch seen with
  | nil =>
    simp only [batchLoop, Except.ok.injEq] at h
    exact h ▸ List.prefix_rfl
  | cons a as ih =>
    have key : ∀ (y : Vec) (sn : List Vec),
        (if (batch ++ [y]).length = n then Except.ok (batch ++ [y])
          else batchLoop sp opt n (k + 1) as (batch ++ [y]) sn) = .ok b → batch <+: b := by
      intro y sn hy
      split_ifs at hy with hn
      · simp only [Except.ok.injEq] at hy
        exact hy ▸ List.prefix_append _ _
      · exact (List.prefix_append _ _).trans (ih hy)
    unfold batchLoop at h
    split at h
    · simp at h
    next x _ =>
    split at h
    · simp at h
    next zx _ =>
    by_cases h1 : zx ∉ seen
    · rw [if_pos h1] at h
      exact key _ _ h
    · rw [if_neg h1] at h
      split at h
      · simp at h
      next za _ =>
      by_cases h2 : za ∉ seen
      · rw [if_pos h2] at h
        exact key _ _ h
      · rw [if_neg h2] at h
        by_cases h3 : batch.length = n
        · rw [if_pos h3] at h
          simp only [Except.ok.injEq] at h
          exact h ▸ List.prefix_rfl
        · rw [if_neg h3] at h
          exact ih h

/-- The loop with fewer anchor points and a smaller batch stops on the way of the loop with more. -/
theorem batchLoop_nested {sp : Space} {opt : Nat → Vec → Py Vec} {m n : Nat} (hmn : m ≤ n) {as as' : Mat} {k : Nat}
    {batch : Mat} {seen : List Vec} {b' : Mat} (hlt : batch.length < m)
    (h : batchLoop sp opt n k (as ++ as') batch seen = .ok b') :
    ∃ b, batchLoop sp opt m k as batch seen = .ok b ∧ b <+: b' := by
  induction as generalizing k batch seen with
  | nil => exact ⟨batch, rfl, batchLoop_extends h⟩
  | cons a as ih =>
    rw [List.cons_append] at h
    unfold batchLoop at h ⊢
    split at h
    · simp at h
    split at h
    · simp at h
    next zx hzx =>
    have key : ∀ (y : Vec) (sn : List Vec),
        (if (batch ++ [y]).length = n then Except.ok (batch ++ [y])
          else batchLoop sp opt n (k + 1) (as ++ as') (batch ++ [y]) sn) = .ok b' →
        ∃ b, (if (batch ++ [y]).length = m then Except.ok (batch ++ [y])
          else batchLoop sp opt m (k + 1) as (batch ++ [y]) sn) = .ok b ∧ b <+: b' := by
      intro y sn hy
      by_cases hm : (batch ++ [y]).length = m
      · rw [if_pos hm]
        refine ⟨_, rfl, ?_⟩
        split_ifs at hy with hn
        · simp only [Except.ok.injEq] at hy
          exact hy ▸ List.prefix_rfl
        · exact batchLoop_extends hy
      · rw [if_neg hm]
        have hlt' : (batch ++ [y]).length < m := by
          simp only [List.length_append, List.length_singleton] at hm ⊢
          omega
        rw [if_neg (by omega)] at hy
        exact ih hlt' hy
    by_cases h1 : zx ∉ seen
    · rw [if_pos h1] at h ⊢
      exact key _ _ h
    · rw [if_neg h1] at h ⊢
      split at h
      · simp at h
      next za hza =>
      by_cases h2 : za ∉ seen
      · rw [if_pos h2] at h ⊢
        exact key _ _ h
      · rw [if_neg h2] at h ⊢
        rw [if_neg (by omega)] at h ⊢
        exact ih hlt h

theorem batchLoop_ne_nil {sp : Space} {opt : Nat → Vec → Py Vec} {n k : Nat} {a : Vec} {as : Mat} {seen : List Vec}
    (ha : ∀ z, zipTuple sp a = .ok z → z ∉ seen) {b : Mat} (h : batchLoop sp opt n k (a :: as) [] seen = .ok b) : b ≠ [] := by
  unfold batchLoop at h
  split at h
  · simp at h
  next x hx =>
  split at h
  · simp at h
  next zx _ =>
  have key : ∀ (y : Vec) (sn : List Vec),
      (if (([] : Mat) ++ [y]).length = n then Except.ok (([] : Mat) ++ [y])
        else batchLoop sp opt n (k + 1) as ([] ++ [y]) sn) = .ok b → b ≠ [] := by
    intro y sn hy hb
    subst hb
    split_ifs at hy with hn
    · simp at hy
    · simpa using batchLoop_extends hy
  by_cases h1 : zx ∉ seen
  · rw [if_pos h1] at h
    exact key _ _ h
  · rw [if_neg h1] at h
    split at h
    · simp at h
    next za hza =>
    rw [if_pos (ha za hza)] at h
    exact key _ _ h

theorem vstack_ok {m b : Mat} (h : vstack m = .ok b) : m = b ∧ m ≠ [] := by
  unfold vstack at h
  split_ifs at h with hm
  simp only [Except.ok.injEq] at h
  exact ⟨h, hm⟩

/-- Batches with de-duplication are nested if the anchor points are, and the first location leaves room for another. -/
theorem dedupBatch_nested {sp : Space} {dm : DupMgr} {as as' : Mat} (has : as <+: as') (hne : as' ≠ [] → as ≠ [])
    (hfr : ∀ a ∈ as, ∀ z, zipTuple sp a = .ok z → z ∉ dm.points) {x0 : Py (Option Vec)} {opt : Nat → Vec → Py Vec}
    {m n : Nat} (hmn : m ≤ n) (hm : 1 ≤ m) (hx : (∃ x, x0 = .ok (some x)) → 2 ≤ m) {b' : Mat}
    (h : dedupBatch sp dm (.ok as') x0 opt n = .ok b') :
    ∃ b, dedupBatch sp dm (.ok as) x0 opt m = .ok b ∧ b ≠ [] ∧ b <+: b' := by
  have main : ∀ (batch : Mat) (seen : List Vec), batch.length < m → (batch = [] → seen = dm.points) →
      (match batchLoop sp opt n 0 as' batch seen with
        | .error e => .error e
        | .ok b => vstack b) = Except.ok b' →
      ∃ b, (match batchLoop sp opt m 0 as batch seen with
        | .error e => .error e
        | .ok b => vstack b) = Except.ok b ∧ b ≠ [] ∧ b <+: b' := by
    intro batch seen hlt hseen hb
    split at hb
    · simp at hb
    next c' hc' =>
    obtain ⟨rfl, hcne⟩ := vstack_ok hb
    obtain ⟨r, hr⟩ := has
    rw [← hr] at hc'
    obtain ⟨c, hc, hpre⟩ := batchLoop_nested hmn hlt hc'
    have hcn : c ≠ [] := by
      by_cases hbatch : batch = []
      · subst hbatch
        have hseen := hseen rfl
        subst hseen
        have has' : as' ≠ [] := by
          rintro rfl
          rw [hr] at hc'
          simp only [batchLoop, Except.ok.injEq] at hc'
          exact hcne hc'.symm
        cases as with
        | nil => exact absurd rfl (hne has')
        | cons a as => exact batchLoop_ne_nil (hfr a (by simp)) hc
      · rintro rfl
        exact hbatch (List.prefix_nil.1 (batchLoop_extends hc))
    refine ⟨c, ?_, hcn, hpre⟩
    rw [hc]
    simp [vstack, hcn]
  unfold dedupBatch at h ⊢
  dsimp only at h ⊢
  cases x0 with
  | error e => simp at h
  | ok x0 =>
    cases x0 with
    | none =>
      dsimp only at h ⊢
      exact main _ _ (by simp; omega) (fun _ => rfl) h
    | some x =>
      dsimp only at h ⊢
      by_cases hany : npAny [x]
      · rw [if_pos hany] at h ⊢
        cases hz : zipTuple sp x with
        | error e => simp [hz] at h
        | ok zx =>
          simp only [hz] at h ⊢
          exact main _ _ (by have := hx ⟨x, rfl⟩; simp; omega) (fun e => by simp at e) h
      · rw [if_neg hany] at h ⊢
        dsimp only at h ⊢
        exact main _ _ (by simp; omega) (fun _ => rfl) h

theorem lpLoop_extends {opt : Nat → LPState → Py Vec} {c : ℚ × ℚ} {t k : Nat} {batch : Mat} {s : LPState}
    {tr : List LPState} {r : Mat × LPState × List LPState} (h : lpLoop opt c t k batch s tr = .ok r) : batch <+: r.1 := by
  induction t generalizing k batch s tr with
  | zero =>
    simp only [lpLoop, Except.ok.injEq] at h
    exact h ▸ List.prefix_rfl
  | succ t ih =>
    simp only [lpLoop] at h
    split at h
    · simp at h
    · exact (List.prefix_append _ _).trans (ih h)

theorem lpLoop_nested {opt : Nat → LPState → Py Vec} {c : ℚ × ℚ} {t t' k : Nat} (ht : t ≤ t') {batch : Mat} {s : LPState}
    {tr : List LPState} {r' : Mat × LPState × List LPState} (h : lpLoop opt c t' k batch s tr = .ok r') :
    ∃ r, lpLoop opt c t k batch s tr = .ok r ∧ r.1 <+: r'.1 := by
  induction t generalizing t' k batch s tr with
  | zero => exact ⟨_, rfl, lpLoop_extends h⟩
  | succ t ih =>
    obtain ⟨t', rfl⟩ : ∃ u, t' = u + 1 := ⟨t' - 1, by omega⟩
    simp only [lpLoop] at h ⊢
    split at h
    · simp at h
    exact ih (by omega) h

theorem lpBatch_nested {opt : Nat → LPState → Py Vec} {cs : Py (ℚ × ℚ)} {m n : Nat} (hmn : m ≤ n) {s : LPState}
    {r' : Mat × LPState × List LPState} (h : lpBatch opt cs n s = .ok r') :
    ∃ r, lpBatch opt cs m s = .ok r ∧ r.1 ≠ [] ∧ r.1 <+: r'.1 := by
  unfold lpBatch at h ⊢
  dsimp only at h ⊢
  split at h
  · simp at h
  next x hx =>
  have hsingle : ∀ b : Mat, [x] <+: b → b ≠ [] := by
    rintro b hb rfl
    simp at hb
  by_cases hn : 1 < n
  · rw [if_pos hn] at h
    split at h
    · simp at h
    next c hc =>
    split at h
    · simp at h
    next b s' tr hl =>
    simp only [Except.ok.injEq] at h
    subst h
    by_cases hm : 1 < m
    · rw [if_pos hm]
      obtain ⟨r, hr, hpre⟩ := lpLoop_nested (show m - 1 ≤ n - 1 by omega) hl
      have he := lpLoop_extends hr
      rw [hr]
      exact ⟨_, rfl, hsingle _ he, hpre⟩
    · have he := lpLoop_extends hl
      rw [if_neg hm]
      exact ⟨_, rfl, by simp, he⟩
  · rw [if_neg hn] at h
    rw [if_neg (by omega)]
    simp only [Except.ok.injEq] at h
    subst h
    exact ⟨_, rfl, by simp, List.prefix_rfl⟩

theorem randomBatch_nested {sp : Space} {ctx : Ctx} {dup : Option DupMgr} {op : AcqOptions} {ns m n : Nat} (hmn : m ≤ n)
    (hm : 1 ≤ m) (hd : dup.isSome = true → 2 ≤ m) {o : BatchOracle} {f : Vec → Py ℚ} {b' : Mat}
    (h : randomBatch sp ctx dup op ns n o f = .ok b') :
    ∃ b, randomBatch sp ctx dup op ns m o f = .ok b ∧ b ≠ [] ∧ b <+: b' := by
  unfold randomBatch at h ⊢
  cases dup with
  | none =>
    dsimp only at h ⊢
    split at h
    · simp at h
    next x v hx =>
    split at h
    · simp at h
    next A hA =>
    simp only [Except.ok.injEq] at h
    subst h
    unfold randomBatchAnchors at hA ⊢
    rw [anchorPoints_take (show 5 * m ≤ 5 * n by omega) hA]
    dsimp only
    refine ⟨_, rfl, by simp, ?_⟩
    rw [List.take_take, List.prefix_cons_inj, show min (m - 1) (5 * m) = min (m - 1) (n - 1) by omega, ← List.take_take]
    exact List.take_prefix _ _
  | some dm =>
    dsimp only at h ⊢
    cases hA : randomBatchAnchors sp ctx (some dm) ns n o.batch with
    | error e =>
      rw [hA] at h
      simp [dedupBatch] at h
    | ok A =>
      rw [hA] at h
      unfold randomBatchAnchors at hA ⊢
      have hA' := anchorPoints_take (show 5 * m ≤ 5 * n by omega) hA
      rw [hA']
      refine dedupBatch_nested (List.take_prefix _ _) ?_ (fun a ha z hz => anchorPoints_fresh hA' ha hz) hmn hm
        (fun _ => hd rfl) h
      cases A with
      | nil => simp
      | cons a A =>
        obtain ⟨j, hj⟩ : ∃ j, 5 * m = j + 1 := ⟨5 * m - 1, by omega⟩
        rw [hj]
        simp

theorem zipIdx_take_take {α : Type} (l : List α) {i j : Nat} (h : i ≤ j) : (l.take j).zipIdx.take i = l.zipIdx.take i := by
  apply List.ext_getElem?
  intro k
  simp only [List.getElem?_take, List.getElem?_zipIdx]
  by_cases hk : k < i
  · simp [hk, show k < j by omega]
  · simp [hk]

theorem thompsonBatch_nested {sp : Space} {ctx : Ctx} {dup : Option DupMgr} {ns m n : Nat} (hmn : m ≤ n)
    (hm : 1 ≤ m) {o : BatchOracle} {f : Vec → Py ℚ} {b' : Mat}
    (h : thompsonBatch sp ctx dup ns n o f = .ok b') :
    ∃ b, thompsonBatch sp ctx dup ns m o f = .ok b ∧ b ≠ [] ∧ b <+: b' := by
  unfold thompsonBatch at h ⊢
  cases dup with
  | none =>
    dsimp only at h ⊢
    split at h
    · simp at h
    next A hA =>
    split at h
    · simp at h
    next b hb =>
    obtain ⟨rfl, hbn⟩ := vstack_ok h
    unfold thompsonBatchAnchors at hA ⊢
    rw [anchorPoints_take (show 5 * m ≤ 5 * n by omega) hA]
    dsimp only
    have ht : (A.take (5 * m)).zipIdx.take m = (A.zipIdx.take n).take m := by
      rw [zipIdx_take_take A (show m ≤ 5 * m by omega), List.take_take, min_eq_left hmn]
    rw [ht, mapE_take hb m]
    have hne : b.take m ≠ [] := by
      cases b with
      | nil => exact absurd rfl hbn
      | cons y b =>
        obtain ⟨j, rfl⟩ : ∃ j, m = j + 1 := ⟨m - 1, by omega⟩
        simp
    exact ⟨b.take m, by simp only [vstack, if_neg hne], hne, List.take_prefix _ _⟩
  | some dm =>
    dsimp only at h ⊢
    cases hA : thompsonBatchAnchors sp ctx (some dm) ns n o.batch with
    | error e =>
      rw [hA] at h
      simp [dedupBatch] at h
    | ok A =>
      rw [hA] at h
      unfold thompsonBatchAnchors at hA ⊢
      have hA' := anchorPoints_take (show 5 * m ≤ 5 * n by omega) hA
      rw [hA']
      refine dedupBatch_nested (List.take_prefix _ _) ?_ (fun a ha z hz => anchorPoints_fresh hA' ha hz) hmn hm
        (by simp) h
      cases A with
      | nil => simp
      | cons a A =>
        obtain ⟨j, hj⟩ : ∃ j, 5 * m = j + 1 := ⟨5 * m - 1, by omega⟩
        rw [hj]
        simp

/-- **C165 (partial: not for random batches of one location with de-duplication).** In every space, with every context and
history, if a batch of `n` locations can be computed, so can the batch of `m ≤ n` locations with the same random numbers, and
the larger batch starts with the smaller one. -/
theorem C165_larger_batch_partial (kind : BatchKind) {m n : Nat} (hm : 1 ≤ m) (hmn : m ≤ n) (env : EvalEnv) (sp : Space)
    (context : Option Context) (deDup : Bool) (hd : kind = .random → deDup = true → 2 ≤ m) (X : Mat)
    (pending ignored : Option Mat) {b' : Mat} (h : computeNext (kind.of n) env sp context deDup X pending ignored = .ok b') :
    ∃ b, computeNext (kind.of m) env sp context deDup X pending ignored = .ok b ∧ b <+: b' := by
  unfold computeNext at h ⊢
  split at h
  · simp at h
  next ctx hctx =>
  dsimp only at h ⊢
  split at h
  · simp at h
  next c' hc' =>
  have : ∃ c, computeBatch (kind.of m) env sp ctx (if deDup then some (dupMgr X pending ignored) else none) = .ok c ∧
      c ≠ [] ∧ c <+: c' := by
    cases kind with
    | random =>
      refine randomBatch_nested hmn hm ?_ hc'
      intro hs
      refine hd rfl ?_
      cases deDup <;> simp_all
    | thompson => exact thompsonBatch_nested hmn hm hc'
    | localPenalization =>
      simp only [BatchKind.of, computeBatch] at hc' ⊢
      obtain ⟨r', hr', rfl⟩ := Except_map_eq_ok.1 hc'
      obtain ⟨r, hr, hne, hpre⟩ := lpBatch_nested hmn hr'
      rw [hr]
      exact ⟨_, rfl, hne, hpre⟩
  obtain ⟨c, hc, hne, hpre⟩ := this
  rw [hc]
  exact zipInputs_prefix hne hpre h

theorem dotRange_zero (k : Nat) (x : Vec) (h : ∀ v ∈ x, v = 0) : dotRange k x = 0 := by
  induction x generalizing k with
  | nil => rfl
  | cons a x ih =>
    unfold dotRange
    rw [ih _ (fun v hv => h v (by simp [hv])), h a (by simp)]
    simp

theorem modelToObjectiveFrom_zero {x : Vec} (hx : ∀ v ∈ x, v = 0) (vs : List EVar) (idx : Nat) {z : Vec}
    (h : modelToObjectiveFrom x idx vs = .ok z) : ∀ v ∈ z, v = 0 := by
  induction vs generalizing idx z with
  | nil =>
    simp only [modelToObjectiveFrom, Except.ok.injEq] at h
    subst h
    simp
  | cons e vs ih =>
    unfold modelToObjectiveFrom at h
    split at h
    · simp at h
    next entry he =>
    split at h
    · simp at h
    next rest hr =>
    simp only [Except.ok.injEq] at h
    subst h
    intro v hv
    rcases List.mem_cons.1 hv with rfl | hv
    · unfold Kind.modelToObjective at he
      split at he
      · exact hx _ (List.mem_of_getElem? (npGet_ok.1 he))
      · exact hx _ (List.mem_of_getElem? (npGet_ok.1 he))
      · simp only [Except.ok.injEq] at he
        rw [← he]
        refine dotRange_zero _ _ fun w hw => hx w ?_
        exact List.mem_of_mem_drop (List.mem_of_mem_take hw)
      · simp at he
    · exact ih _ hr v hv

/-- A location with a coordinate that is not zero has such a coordinate in the model's representation. -/
theorem npAny_of_zip {sp : Space} {x z : Vec} {Z : Mat} (h : sp.zipInputs [x] = .ok Z) (hz : z ∈ Z) (hv : ∃ v ∈ z, v ≠ 0) :
    npAny [x] = true := by
  by_contra hn
  have hx : ∀ v ∈ x, v = 0 := by
    intro v hvx
    by_contra h0
    exact hn (by simp only [npAny, List.any_cons, List.any_nil, Bool.or_false, List.any_eq_true]; exact ⟨v, hvx, by simpa using h0⟩)
  obtain ⟨v, hvz, hv0⟩ := hv
  apply hv0
  unfold Space.zipInputs at h
  split_ifs at h with hb
  · simp only [Except.ok.injEq] at h
    subst h
    rw [List.mem_singleton] at hz
    subst hz
    exact hx v hvz
  · obtain ⟨r, hr, rfl⟩ := Except_map_eq_ok.1 h
    obtain ⟨y, ys, hy, hys, rfl⟩ := mapE_cons_ok.1 hr
    simp only [mapE_nil, Except.ok.injEq] at hys
    subst hys
    have hz' : z = y := by simpa [atleast2d] using hz
    subst hz'
    exact modelToObjectiveFrom_zero hx _ _ hy v hvz

/-- **C165 (partial: not with de-duplication where the suggestion is the origin).** A random batch starts with the location
that the sequential evaluator suggests. -/
theorem C165_sequential_first_partial {n : Nat} (env : EvalEnv) (sp : Space) (context : Option Context) (deDup : Bool)
    (X : Mat) (pending ignored : Option Mat) {s b : Mat}
    (hs : computeNext .sequential env sp context deDup X pending ignored = .ok s)
    (h0 : deDup = true → ∃ z ∈ s, ∃ v ∈ z, v ≠ 0)
    (hb : computeNext (.random n) env sp context deDup X pending ignored = .ok b) : s <+: b := by
  unfold computeNext at hs hb
  split at hs
  · simp at hs
  next ctx hctx =>
  simp only [hctx] at hb
  dsimp only at hs
  simp only [computeBatch, sequentialBatch] at hs hb
  cases hx : acqOptimize sp ctx (if deDup then some (dupMgr X pending ignored) else none) env.op env.oracle.acq env.f with
  | error e => simp [hx] at hs
  | ok r =>
    obtain ⟨x, v⟩ := r
    simp only [hx] at hs
    split at hb
    · simp at hb
    next c hc =>
    have hpre : [x] <+: c := by
      cases deDup with
      | false =>
        simp only [Bool.false_eq_true, if_false] at hx hc
        unfold randomBatch at hc
        simp only [hx] at hc
        split at hc
        · simp at hc
        simp only [Except.ok.injEq] at hc
        subst hc
        exact ⟨_, rfl⟩
      | true =>
        simp only [if_true] at hx hc
        obtain ⟨z, hz, hv⟩ := h0 rfl
        have hany := npAny_of_zip hs hz hv
        unfold randomBatch dedupBatch at hc
        simp only [hx, Except_map_ok, hany, if_true] at hc
        split at hc
        · simp at hc
        cases hzt : zipTuple sp x with
        | error e => simp [hzt] at hc
        | ok zx =>
          simp only [hzt] at hc
          split at hc
          · simp at hc
          next hl =>
          obtain ⟨rfl, _⟩ := vstack_ok hc
          exact batchLoop_extends hl
    obtain ⟨z, hz, hp⟩ := zipInputs_prefix (by simp) hpre hb
    rw [hz] at hs
    simp only [Except.ok.injEq] at hs
    exact hs ▸ hp

/-- **C165 (partial: not with de-duplication).** Where the penalized acquisition without penalizers is the acquisition, a batch
of local penalization starts with the location that the sequential evaluator suggests. -/
theorem C165_penalized_first_partial {n : Nat} (env : EvalEnv) (sp : Space) (context : Option Context)
    (X : Mat) (pending ignored : Option Mat) (hf : env.fLP { env.lpState with penalizers := none } = env.f)
    (ho : env.acqLP 0 = env.oracle.acq) {s b : Mat}
    (hs : computeNext .sequential env sp context false X pending ignored = .ok s)
    (hb : computeNext (.localPenalization n) env sp context false X pending ignored = .ok b) : s <+: b := by
  unfold computeNext at hs hb
  split at hs
  · simp at hs
  next ctx hctx =>
  simp only [hctx] at hb
  dsimp only at hs
  simp only [computeBatch, sequentialBatch, Bool.false_eq_true, if_false] at hs hb
  cases hx : acqOptimize sp ctx none env.op env.oracle.acq env.f with
  | error e => simp [hx] at hs
  | ok r =>
    obtain ⟨x, v⟩ := r
    simp only [hx] at hs
    split at hb
    · simp at hb
    next c hc =>
    obtain ⟨r, hr, rfl⟩ := Except_map_eq_ok.1 hc
    have hpre : [x] <+: r.1 := by
      unfold lpBatch at hr
      simp only [LPState.update, hf, ho, hx, Except_map_ok] at hr
      split_ifs at hr
      · split at hr
        · simp at hr
        split at hr
        · simp at hr
        next hl =>
        simp only [Except.ok.injEq] at hr
        subst hr
        have he := lpLoop_extends hl
        exact he
      · simp only [Except.ok.injEq] at hr
        subst hr
        exact List.prefix_rfl
    obtain ⟨z, hz, hp⟩ := zipInputs_prefix (by simp) hpre hb
    rw [hz] at hs
    simp only [Except.ok.injEq] at hs
    exact hs ▸ hp

/-- **C165 (negation of the full property).** With de-duplication the random batch for one location has six, that for two has
two of them. -/
theorem C165_batch_of_one_counterexample :
    ((designSpace exConfig none).bind fun sp =>
      (computeNext (.random 1) exEnv sp none true [] none none).map List.length) = .ok 6 ∧
    ((designSpace exConfig none).bind fun sp =>
      (computeNext (.random 2) exEnv sp none true [] none none).map List.length) = .ok 2 := by
  constructor <;> decide +kernel

/-- **C165 (negation of the full property).** The origin is suggested by the sequential evaluator, and is not in the random
batch with de-duplication. -/
theorem C165_origin_counterexample :
    ((designSpace exDiscrete none).bind fun sp =>
      computeNext .sequential { exEnv with f := exAbs } sp none true [] none none) = .ok [[0]] ∧
    ((designSpace exDiscrete none).bind fun sp =>
      computeNext (.random 2) { exEnv with f := exAbs } sp none true [] none none) = .ok [[-4], [-3]] := by
  constructor <;> decide +kernel

/-- **C165 (negation of the full property).** With de-duplication the sequential evaluator does not suggest the evaluated
location with the best acquisition; local penalization starts with it. -/
theorem C165_penalized_counterexample :
    ((designSpace exDiscrete none).bind fun sp =>
      computeNext .sequential exEnv sp none true [[-4]] none none) = .ok [[-3]] ∧
    ((designSpace exDiscrete none).bind fun sp =>
      computeNext (.localPenalization 2) exEnv sp none true [[-4]] none none) = .ok [[-4], [-4]] := by
  constructor <;> decide +kernel

/-- Batches of two and of four locations with de-duplication and context. -/
example : ((designSpace exConfig none).bind fun sp =>
    computeNext (.random 2) exEnv sp exContext true [[-1, 1/2, 0, 1]] none (some [[-1, 1/2, 3, 1]]))
      = .ok [[-3/5, 1/2, 0, 1], [-5/7, 1/2, 3, 1]] ∧
    ((designSpace exConfig none).bind fun sp =>
      computeNext (.thompson 2) exEnv sp exContext true [[-1, 1/2, 0, 1]] none (some [[-1, 1/2, 3, 1]]))
      = .ok [[-5/7, 1/2, 3, 1], [-1, 1/2, 7, 1]] := by
  constructor <;> decide +kernel

/-- The location of the sequential evaluator, not the origin, and of local penalization. -/
example : ((designSpace exConfig none).bind fun sp =>
    computeNext .sequential exEnv sp exContext true [[-1, 1/2, 0, 1]] none (some [[-1, 1/2, 3, 1]]))
      = .ok [[-3/5, 1/2, 0, 1]] ∧ exEnv.fLP { exEnv.lpState with penalizers := none } = exEnv.f ∧
    exEnv.acqLP 0 = exEnv.oracle.acq := by
  refine ⟨by decide +kernel, rfl, rfl⟩

end GPyOpt.Props
