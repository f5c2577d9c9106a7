import Verif.Lemmas.Optimizer

/-! # Lemmas about batch evaluators -/

namespace GPyOpt

open Spec Props

theorem zipTuple_encode {config : List Desc} {cs : Option (List ConstrDict)} {sp : Space}
    (h : designSpace config cs = .ok sp) (hb : sp.hasBandit = false) {z : Vec}
    (hz : ObjDomain sp.kinds z) : zipTuple sp (encodeRow sp.kinds z) = .ok z := by
  rw [zipTuple, zipInputs_encode h hb hz]; simp [Except.map]

theorem zipInputs_encode_all {config : List Desc} {cs : Option (List ConstrDict)} {sp : Space}
    (h : designSpace config cs = .ok sp) (hb : sp.hasBandit = false) {Z : Mat}
    (hne : Z ≠ []) (hz : ∀ z ∈ Z, ObjDomain sp.kinds z) :
    sp.zipInputs (Z.map (encodeRow sp.kinds)) = .ok Z := by
  have hk := space_kinds_eq h
  have := (C01_zip_unzip h hb Z hne (fun z hzm => encodable_of_objDomain (hk ▸ hz z hzm))).2
  simpa [← hk] using this

/-- What the loop over the anchor points adds to a batch. -/
theorem batchLoop_spec {config : List Desc} {cs : Option (List ConstrDict)} {sp : Space}
    (h : designSpace config cs = .ok sp) (hb : sp.hasBandit = false) {context : Option Context}
    {optAnchor : Nat → Vec → Py Vec} (P : Vec → Prop)
    (hopt : ∀ k a z0 x, GoodRow sp.kinds sp context a z0 → P z0 → optAnchor k a = .ok x →
      ∃ z, GoodRow sp.kinds sp context x z ∧ P z)
    (batchSize : Nat) (as : Mat) :
    ∀ (k : Nat) (batch : Mat) (seen : List Vec) (b : Mat),
    (∀ a ∈ as, ∃ z, GoodRow sp.kinds sp context a z ∧ P z) →
    batchLoop sp optAnchor batchSize k as batch seen = .ok b →
    ∃ Z : Mat, b = batch ++ Z.map (encodeRow sp.kinds) ∧
      (∀ z ∈ Z, ObjDomain sp.kinds z ∧ HasContext sp context z ∧ P z ∧ z ∉ seen) ∧ Z.Nodup ∧
      (batch.length < batchSize → b.length ≤ batchSize) ∧
      (b.length = batchSize ∨ ∀ (i : Nat) (a : Vec), as[i]? = some a →
        ∃ z, optAnchor (k + i) a = .ok (encodeRow sp.kinds z) ∧ ObjDomain sp.kinds z ∧ P z ∧
          (z ∈ seen ∨ z ∈ Z)) := by
  induction as with
  | nil =>
    intro k batch seen b _ hbl
    simp only [batchLoop, Except.ok.injEq] at hbl
    subst hbl
    exact ⟨[], by simp, by simp, by simp, fun h => h.le, .inr (by simp)⟩
  | cons a as ih =>
    intro k batch seen b hga hbl
    have hga' : ∀ a ∈ as, ∃ z, GoodRow sp.kinds sp context a z ∧ P z :=
      fun a' ha' => hga a' (by simp [ha'])
    obtain ⟨za, hza, hPa⟩ := hga a (by simp)
    unfold batchLoop at hbl
    cases hx : optAnchor k a with
    | error e => simp [hx] at hbl
    | ok x =>
      obtain ⟨zx, ⟨hxe, hzx, hcx⟩, hPx⟩ := hopt k a za x hza hPa hx
      obtain ⟨hae, hzaD, hca⟩ := hza
      subst hxe
      rw [hae] at hbl
      simp only [hae ▸ hx, zipTuple_encode h hb hzx, zipTuple_encode h hb hzaD] at hbl
      -- adding one new point `z` and going on
      have step : ∀ z, ObjDomain sp.kinds z → HasContext sp context z → P z → z ∉ seen →
          (zx = z ∨ zx ∈ seen) →
          (if (batch ++ [encodeRow sp.kinds z]).length = batchSize then
              (.ok (batch ++ [encodeRow sp.kinds z]) : Py Mat)
            else batchLoop sp optAnchor batchSize (k + 1) as (batch ++ [encodeRow sp.kinds z])
              (z :: seen)) = .ok b →
          ∃ Z : Mat, b = batch ++ Z.map (encodeRow sp.kinds) ∧
            (∀ z ∈ Z, ObjDomain sp.kinds z ∧ HasContext sp context z ∧ P z ∧ z ∉ seen) ∧ Z.Nodup ∧
            (batch.length < batchSize → b.length ≤ batchSize) ∧
            (b.length = batchSize ∨ ∀ (i : Nat) (a' : Vec), (a :: as)[i]? = some a' →
              ∃ z, optAnchor (k + i) a' = .ok (encodeRow sp.kinds z) ∧ ObjDomain sp.kinds z ∧ P z ∧
                (z ∈ seen ∨ z ∈ Z)) := by
        intro z hz hcz hPz hns hzx' hif
        split_ifs at hif with hlen
        · simp only [Except.ok.injEq] at hif
          subst hif
          refine ⟨[z], by simp, ?_, by simp, fun _ => hlen.le, .inl hlen⟩
          intro z' hz'
          rw [List.mem_singleton] at hz'
          subst hz'
          exact ⟨hz, hcz, hPz, hns⟩
        · obtain ⟨Z, e1, e2, e3, e4, e5⟩ := ih (k + 1) _ _ b hga' hif
          refine ⟨z :: Z, by simpa using e1, ?_, ?_, ?_, ?_⟩
          · intro z' hz'
            rcases List.mem_cons.1 hz' with rfl | hz'
            · exact ⟨hz, hcz, hPz, hns⟩
            · obtain ⟨g1, g2, g3, g4⟩ := e2 z' hz'
              exact ⟨g1, g2, g3, fun hs => g4 (by simp [hs])⟩
          · refine List.nodup_cons.2 ⟨fun hm => (e2 z hm).2.2.2 (by simp), e3⟩
          · intro hlt
            apply e4
            simp only [List.length_append, List.length_singleton] at hlen ⊢
            omega
          · rcases e5 with e5 | e5
            · exact .inl e5
            · right
              intro i a' hi
              cases i with
              | zero =>
                simp only [List.getElem?_cons_zero, Option.some.injEq] at hi
                subst hi
                refine ⟨zx, hx, hzx, hPx, ?_⟩
                rcases hzx' with rfl | hzx'
                · right; simp
                · exact .inl hzx'
              | succ i =>
                simp only [List.getElem?_cons_succ] at hi
                obtain ⟨z1, g1, g2, g3, g4⟩ := e5 i a' hi
                refine ⟨z1, by rw [← g1]; congr 1; omega, g2, g3, ?_⟩
                rcases g4 with g4 | g4
                · rcases List.mem_cons.1 g4 with rfl | g4
                  · right; simp
                  · exact .inl g4
                · right; simp [g4]
      by_cases hs : zx ∈ seen
      · simp only [hs, not_true_eq_false, if_false] at hbl
        by_cases hs2 : za ∈ seen
        · simp only [hs2, not_true_eq_false, if_false] at hbl
          split_ifs at hbl with hlen
          · simp only [Except.ok.injEq] at hbl
            subst hbl
            exact ⟨[], by simp, by simp, by simp, fun _ => hlen.le, .inl hlen⟩
          · obtain ⟨Z, e1, e2, e3, e4, e5⟩ := ih (k + 1) _ _ b hga' hbl
            refine ⟨Z, e1, e2, e3, e4, ?_⟩
            rcases e5 with e5 | e5
            · exact .inl e5
            · right
              intro i a' hi
              cases i with
              | zero =>
                simp only [List.getElem?_cons_zero, Option.some.injEq] at hi
                subst hi
                exact ⟨zx, hx, hzx, hPx, .inl hs⟩
              | succ i =>
                simp only [List.getElem?_cons_succ] at hi
                obtain ⟨z1, g1, g2, g3, g4⟩ := e5 i a' hi
                exact ⟨z1, by rw [← g1]; congr 1; omega, g2, g3, g4⟩
        · simp only [hs2, not_false_eq_true, if_true] at hbl
          exact step za hzaD hca hPa hs2 (.inr hs) hbl
      · simp only [hs, not_false_eq_true, if_true] at hbl
        exact step zx hzx hcx hPx hs (.inl rfl) hbl

theorem thompsonOptimize_sound {config : List Desc} {cs : Option (List ConstrDict)} {sp : Space}
    (h : designSpace config cs = .ok sp) (hb : sp.hasBandit = false)
    (hne : ∀ k ∈ sp.kinds, NonEmptyDom k) (hvar : sp.kinds ≠ [])
    {context : Option Context} (hg : ValidContext sp context) {c : Ctx}
    (hc : contextManager sp context = .ok c) {dup : Option DupMgr} {o : AcqOracle}
    (hopt : ∀ k, OptShape (o.opt k)) {f : Vec → Py ℚ} {k : Nat} {a z0 x : Vec}
    (ha : GoodRow sp.kinds sp context a z0) (hd : ¬ InDup dup z0)
    (hx : thompsonOptimize sp c dup o f k a = .ok x) :
    ∃ z, GoodRow sp.kinds sp context x z ∧ ¬ InDup dup z := by
  unfold thompsonOptimize at hx
  cases hr : applyOptimizer sp (some c) dup (o.opt k) f a with
  | error e => simp [hr] at hx
  | ok r =>
    obtain ⟨xs, -, h3⟩ := (applyOptimizer_spec h hb hne hvar hg hc dup (hopt k) f ha).2 hd
    rcases h3 with ⟨e, -, he⟩ | ⟨y, x', z, -, ⟨rfl, hz, hcz⟩, hdz, heq⟩
    · rw [hr] at he; cases he
    · rw [hr] at heq
      cases hf : f (encodeRow sp.kinds z) with
      | error e => simp [hf] at heq
      | ok v =>
        simp only [hf, Except.ok.injEq] at heq
        subst heq
        have hround : sp.roundOptimum2d [encodeRow sp.kinds z] = .ok [encodeRow sp.kinds z] := by
          have := C04_round_fixed h hb (space_kinds_eq h ▸ hne) (space_kinds_eq h ▸ hvar)
            (encodeRow sp.kinds z) (space_kinds_eq h ▸ encodeRow_modelDomain hz)
          simpa [Space.roundOptimum2d] using this
        simp only [hr, hround, Except.ok.injEq] at hx
        subst hx
        exact ⟨z, ⟨rfl, hz, hcz⟩, hdz⟩

/-- Without de-duplication and without uniqueness, `get` returns as many anchor points as requested,
or as there are samples. -/
theorem anchorPoints_length {config : List Desc} {cs : Option (List ConstrDict)} {sp : Space}
    (h : designSpace config cs = .ok sp) (hb : sp.hasBandit = false)
    (hs : ∀ k ∈ sp.kinds, Samplable k)
    {context : Option Context} (hg : ValidContext sp context) {c : Ctx}
    (hc : contextManager sp context = .ok c) {o : DesignOracle} (ho : UnitOracle o) {t : String}
    (ht : t ∈ ["random", "sobol"]) {n : Nat} (hn : 0 < n)
    {numAnchor : Nat} {score : Mat → Py (List ℚ)} (hsc : ScoreShape score)
    {argsort : List ℚ → List Nat} (ha : IsArgsort argsort) {as : Mat}
    (has : anchorPoints sp (some c) none false t n numAnchor o score argsort = .ok as) :
    as.length = min numAnchor n := by
  rcases anchorPoints_spec h hb hs hg hc ho ht hn false none numAnchor hsc ha with
    ⟨e, h1, _⟩ | ⟨m, Z, h1, h2, h3, h4⟩
  · rw [has] at h1; cases h1
  · simp only [Bool.false_eq_true, if_false] at h2
    have hZ : Z.length = n := by rw [← h2.length_eq, h1]
    have hnd : ∀ z, ¬ InDup none z := by rintro z ⟨dm, h, -⟩; cases h
    have hex : ∃ z ∈ Z, ¬ InDup none z := by
      obtain ⟨z, hz⟩ := List.exists_mem_of_ne_nil Z (by rintro rfl; simp at hZ; omega)
      exact ⟨z, hz, hnd z⟩
    rcases h4 hex with ⟨e, h5, h6⟩ | ⟨s, A, h5, h6, h7, h8, h9, h10⟩
    · rw [has] at h6; cases h6
    · rw [has] at h7
      injection h7 with h7
      rw [h7, List.length_map, h9, List.filter_eq_self.2 (by simp [hnd]), hZ]

theorem exists_rows {ks : List Kind} {sp : Space} {context : Option Context} {dup : Option DupMgr}
    {as : Mat} (h : ∀ a ∈ as, ∃ z, GoodRow ks sp context a z ∧ ¬ InDup dup z) :
    ∃ Z : Mat, as = Z.map (encodeRow ks) ∧ ∀ z ∈ Z, ObjDomain ks z ∧ HasContext sp context z := by
  induction as with
  | nil => exact ⟨[], rfl, by simp⟩
  | cons a as ih =>
    obtain ⟨z, ⟨rfl, hz, hc⟩, -⟩ := h a (by simp)
    obtain ⟨Z, rfl, hZ⟩ := ih fun a ha => h a (by simp [ha])
    refine ⟨z :: Z, rfl, ?_⟩
    intro z' hz'
    rcases List.mem_cons.1 hz' with rfl | hz'
    · exact ⟨hz, hc⟩
    · exact hZ z' hz'

end GPyOpt
