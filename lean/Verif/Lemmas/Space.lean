import Verif.Spec.Space
import Verif.Lemmas.Py

namespace GPyOpt

open Spec

/-! ## One-hot vectors -/

theorem pyInt_natCast (k : Nat) : pyInt (k : ℚ) = k := by
  have : (0 : ℚ) ≤ (k : ℚ) := Nat.cast_nonneg k
  simp [pyInt]

theorem pyIndex_natCast {n k : Nat} (h : k < n) : pyIndex n (k : Int) = some k := by
  unfold pyIndex
  rw [if_pos ⟨by omega, by omega⟩]
  simp

theorem set_eq_oneHot (n i : Nat) : (List.replicate n (0 : ℚ)).set i 1 = oneHot n i := by
  apply List.ext_getElem
  · simp [oneHot]
  · intro j h1 h2
    simp [oneHot, List.getElem_set, eq_comm]

theorem oneHot_length (n k : Nat) : (oneHot n k).length = n := by simp [oneHot]

theorem encodeVal_categorical (labels : List ℚ) (k : Nat) :
    encodeVal (.categorical labels) (k : ℚ) = oneHot labels.length k := by
  simp [encodeVal, oneHot]

theorem dotRange_set (n : Nat) : ∀ (s i : Nat), i < n →
    dotRange s ((List.replicate n (0 : ℚ)).set i 1) = (s : ℚ) + i := by
  have hz : ∀ (n s : Nat), dotRange s (List.replicate n (0 : ℚ)) = 0 := by
    intro n
    induction n with
    | zero => intro s; rfl
    | succ n ih => intro s; simp [List.replicate_succ, dotRange, ih]
  induction n with
  | zero => intro s i h; omega
  | succ n ih =>
    intro s i h
    cases i with
    | zero => simp [List.replicate_succ, dotRange, hz]
    | succ i =>
      simp only [List.replicate_succ, List.set_cons_succ, dotRange]
      rw [ih (s + 1) i (by omega)]
      push_cast; ring

theorem dotRange_oneHot {n k : Nat} (h : k < n) : dotRange 0 (oneHot n k) = k := by
  rw [← set_eq_oneHot, dotRange_set n 0 k h]; simp

theorem oneHot_injective {n i j : Nat} (hi : i < n) (hj : j < n) (h : oneHot n i = oneHot n j) :
    i = j := by
  have := congrArg (dotRange 0) h
  rw [dotRange_oneHot hi, dotRange_oneHot hj] at this
  exact_mod_cast this

/-! ## Encoding and decoding -/

theorem dimInModel_eq_width (k : Kind) : k.dimInModel = width k := by cases k <;> rfl

theorem objectiveToModel_kind {k : Kind} {x : ℚ} (h : Encodable k x) :
    k.objectiveToModel x = .ok (encodeVal k x) := by
  cases k with
  | continuous lo hi => rfl
  | discrete vals => rfl
  | categorical labels =>
    obtain ⟨i, hi, rfl⟩ := h
    simp only [Kind.objectiveToModel, pyInt_natCast, pyIndex_natCast hi, set_eq_oneHot,
      encodeVal_categorical]
  | bandit arms => exact absurd h id

theorem encodeVal_length {k : Kind} {x : ℚ} (h : Encodable k x) :
    (encodeVal k x).length = width k := by
  cases k with
  | continuous lo hi => rfl
  | discrete vals => rfl
  | categorical labels => simp [encodeVal, width]
  | bandit arms => exact absurd h id

theorem objectiveToModelFrom_ok {vs : List EVar} {row : Vec}
    (h : List.Forall₂ Encodable (vs.map EVar.kind) row) : ∀ (pre suf : Vec),
    objectiveToModelFrom (pre ++ (row ++ suf)) pre.length vs
      = .ok (encodeRow (vs.map EVar.kind) row) := by
  induction vs generalizing row with
  | nil => intro pre suf; cases h; rfl
  | cons v vs ih =>
    intro pre suf
    obtain ⟨x, row', hx, hrow, rfl⟩ := List.forall₂_cons_left_iff.1 h
    have h1 : npGet (pre ++ (x :: row' ++ suf)) pre.length = .ok x := by simp [npGet_ok]
    have h2 := ih hrow (pre ++ [x]) suf
    simp only [List.append_assoc, List.cons_append, List.nil_append, List.length_append,
      List.length_cons, List.length_nil] at h2
    simp only [objectiveToModelFrom, h1, objectiveToModel_kind hx]
    rw [show pre ++ (x :: row' ++ suf) = pre ++ (x :: (row' ++ suf)) from rfl, h2]
    simp [encodeRow]

theorem modelToObjective_kind {k : Kind} {x : ℚ} (h : Encodable k x) (pre suf : Vec) :
    k.modelToObjective (pre ++ (encodeVal k x ++ suf)) pre.length = .ok x := by
  cases k with
  | continuous lo hi => simp [Kind.modelToObjective, encodeVal, npGet_ok]
  | discrete vals => simp [Kind.modelToObjective, encodeVal, npGet_ok]
  | categorical labels =>
    obtain ⟨i, hi, rfl⟩ := h
    simp only [Kind.modelToObjective, encodeVal_categorical]
    have := slice_append_block pre (oneHot labels.length i) suf
    rw [oneHot_length] at this
    rw [this, dotRange_oneHot hi]
  | bandit arms => exact absurd h id

theorem modelToObjectiveFrom_ok {vs : List EVar} {row : Vec}
    (h : List.Forall₂ Encodable (vs.map EVar.kind) row) : ∀ (pre suf : Vec),
    modelToObjectiveFrom (pre ++ (encodeRow (vs.map EVar.kind) row ++ suf)) pre.length vs
      = .ok row := by
  induction vs generalizing row with
  | nil => intro pre suf; cases h; rfl
  | cons v vs ih =>
    intro pre suf
    obtain ⟨x, row', hx, hrow, rfl⟩ := List.forall₂_cons_left_iff.1 h
    have he : encodeRow ((v :: vs).map EVar.kind) (x :: row')
        = encodeVal v.kind x ++ encodeRow (vs.map EVar.kind) row' := by simp [encodeRow]
    have h2 := ih hrow (pre ++ encodeVal v.kind x) suf
    simp only [List.length_append, encodeVal_length hx, List.append_assoc] at h2
    rw [he, List.append_assoc]
    simp only [modelToObjectiveFrom, modelToObjective_kind hx, dimInModel_eq_width, h2]

theorem encodable_of_validObj {k : Kind} {x : ℚ} (h : ValidObj k x) : Encodable k x := by
  cases k <;> simp_all [ValidObj, Encodable]

theorem encodable_of_objDomain {ks : List Kind} {row : Vec} (h : ObjDomain ks row) :
    List.Forall₂ Encodable ks row :=
  List.Forall₂.imp (fun _ _ => encodable_of_validObj) h

theorem encodeRow_length {ks : List Kind} {row : Vec} (h : List.Forall₂ Encodable ks row) :
    (encodeRow ks row).length = (ks.map width).sum := by
  induction h with
  | nil => rfl
  | cons hx _ ih => simp only [encodeRow, List.zipWith_cons_cons, List.flatten_cons,
      List.length_append, encodeVal_length hx, List.map_cons, List.sum_cons] at ih ⊢; omega

/-- Encoding a domain point gives a domain point. -/
theorem encodeRow_modelDomain {ks : List Kind} {row : Vec} (h : ObjDomain ks row) :
    ModelDomain ks (encodeRow ks row) := by
  refine ⟨List.zipWith encodeVal ks row, ?_, rfl⟩
  induction h with
  | nil => exact .nil
  | @cons k x ks row hx _ ih =>
    refine .cons ?_ ih
    cases k with
    | continuous lo hi => exact ⟨x, rfl, hx⟩
    | discrete vals => exact ⟨x, hx, rfl⟩
    | categorical labels => obtain ⟨i, hi, rfl⟩ := hx; exact ⟨i, hi, encodeVal_categorical _ _⟩
    | bandit arms => exact absurd hx id

/-- Every domain point in model representation encodes a domain point. -/
theorem exists_encodeRow {ks : List Kind} (hnb : NoBandit ks) {z : Vec} (h : ModelDomain ks z) :
    ∃ row, ObjDomain ks row ∧ z = encodeRow ks row := by
  obtain ⟨blocks, hb, rfl⟩ := h
  induction hb with
  | nil => exact ⟨[], .nil, rfl⟩
  | @cons k b ks bs hkb _ ih =>
    obtain ⟨row, hrow, he⟩ := ih (fun k' hk' => hnb k' (by simp [hk']))
    have : ∃ x, ValidObj k x ∧ b = encodeVal k x := by
      cases k with
      | continuous lo hi => obtain ⟨x, rfl, hx⟩ := hkb; exact ⟨x, hx, rfl⟩
      | discrete vals => obtain ⟨x, hx, rfl⟩ := hkb; exact ⟨x, hx, rfl⟩
      | categorical labels =>
        obtain ⟨i, hi, rfl⟩ := hkb
        exact ⟨i, ⟨i, hi, rfl⟩, (encodeVal_categorical _ _).symm⟩
      | bandit arms => exact absurd rfl (hnb _ (by simp) arms)
    obtain ⟨x, hx, rfl⟩ := this
    exact ⟨x :: row, .cons hx hrow, by simp [he, encodeRow]⟩

/-! ## Rounding -/

theorem roundDiscreteLoop_spec (x : ℚ) (ds : List ℚ) : ∀ (l : List ℚ) (best : Nat) (r : ℚ),
    FirstMin (fun y => |y - x|) l best r →
    ∃ i, FirstMin (fun y => |y - x|) (l ++ ds) i (roundDiscreteLoop x ds r) := by
  induction ds with
  | nil => intro l best r h; exact ⟨best, by simpa [roundDiscreteLoop] using h⟩
  | cons d ds ih =>
    intro l best r h
    obtain ⟨h1, h2⟩ := h
    have hbest : best < l.length := by
      by_contra hc
      rw [List.getElem?_eq_none (by omega)] at h1
      cases h1
    by_cases hd : |d - x| < |r - x|
    · have := ih (l ++ [d]) l.length d ⟨by simp, by
        intro j y hy
        rcases Nat.lt_or_ge j l.length with hj | hj
        · rw [List.getElem?_append_left hj] at hy
          exact ⟨(hd.trans_le (h2 j y hy).1).le, fun _ => hd.trans_le (h2 j y hy).1⟩
        · rw [List.getElem?_append_right hj] at hy
          have : j - l.length = 0 := by
            by_contra hne
            rw [List.getElem?_eq_none (by simp; omega)] at hy
            cases hy
          rw [this] at hy
          simp at hy
          subst hy
          exact ⟨le_refl _, fun hj2 => by omega⟩⟩
      simpa [roundDiscreteLoop, hd] using this
    · have := ih (l ++ [d]) best r ⟨by rw [List.getElem?_append_left hbest]; exact h1, by
        intro j y hy
        rcases Nat.lt_or_ge j l.length with hj | hj
        · rw [List.getElem?_append_left hj] at hy
          exact h2 j y hy
        · rw [List.getElem?_append_right hj] at hy
          have : j - l.length = 0 := by
            by_contra hne
            rw [List.getElem?_eq_none (by simp; omega)] at hy
            cases hy
          rw [this] at hy
          simp at hy
          subst hy
          exact ⟨not_lt.1 hd, fun hj2 => by omega⟩⟩
      simpa [roundDiscreteLoop, hd] using this

theorem sqDist_eq (a v : Vec) :
    sqDist a v = (List.zipWith (fun p q => (p - q) ^ 2) a v).sum := by
  induction a generalizing v with
  | nil => simp [sqDist]
  | cons p a ih => cases v with
    | nil => simp [sqDist]
    | cons q v => simp [sqDist, ih]; ring

theorem roundContinuous_spec {lo hi x : ℚ} (h : lo ≤ hi) :
    ∃ r, roundContinuous lo hi [x] = .ok [r] ∧ Nearest (.continuous lo hi) [x] [r] := by
  refine ⟨_, rfl, x, _, rfl, rfl, ?_⟩
  split_ifs with h1 h2
  · refine ⟨le_refl _, h, fun y hy1 hy2 => ?_⟩
    rw [abs_of_nonneg (by linarith), abs_of_nonneg (by linarith)]; linarith
  · refine ⟨h, le_refl _, fun y hy1 hy2 => ?_⟩
    rw [abs_of_nonpos (by linarith), abs_of_nonpos (by linarith)]; linarith
  · refine ⟨by linarith, by linarith, fun y _ _ => ?_⟩
    simp

theorem roundDiscrete_spec {vals : List ℚ} {x : ℚ} (h : vals ≠ []) :
    ∃ r, roundDiscrete vals [x] = .ok [r] ∧ Nearest (.discrete vals) [x] [r] := by
  cases vals with
  | nil => exact absurd rfl h
  | cons v0 rest =>
    obtain ⟨i, hi⟩ := roundDiscreteLoop_spec x rest [v0] 0 v0 ⟨rfl, by
      intro j y hy
      cases j with
      | zero => simp at hy; subst hy; exact ⟨le_refl _, fun h => by omega⟩
      | succ j => simp at hy⟩
    refine ⟨_, rfl, x, _, i, rfl, rfl, ?_⟩
    simpa [roundDiscreteLoop] using hi

theorem roundCategorical_spec {labels : List ℚ} {v : Vec} (h : labels ≠ [])
    (hv : v.length = labels.length) :
    ∃ b, roundCategorical v = .ok b ∧ Nearest (.categorical labels) v b := by
  have hne : v ≠ [] := by
    intro hc; rw [hc] at hv; simp at hv; exact h (List.length_eq_zero_iff.1 hv.symm)
  obtain ⟨i, m, h1, h2, h3, h4⟩ := argmax_spec hne
  refine ⟨oneHot labels.length i, ?_, i, m, hv ▸ h2, rfl, h3, ?_⟩
  · simp [roundCategorical, h1, set_eq_oneHot, hv]
  · intro j y hy
    have := h4 j y hy
    exact ⟨neg_le_neg this.1, fun hj => neg_lt_neg (this.2 hj)⟩

theorem roundBandit_spec {arms : Mat} {v : Vec} (h : arms ≠ []) (hv : v.length = width (.bandit arms)) :
    ∃ b, roundBandit arms v = .ok [b] ∧ Nearest (.bandit arms) v b := by
  obtain ⟨i, m, h1, h2, h3, h4⟩ := argmin_spec (l := arms.map (fun a => sqDist a v)) (by simpa using h)
  rw [List.getElem?_map] at h3
  cases ha : arms[i]? with
  | none => simp [ha] at h3
  | some a =>
    simp [ha] at h3
    refine ⟨a, ?_, i, ha, ?_⟩
    · have : v.length = armDim arms := hv
      simp [roundBandit, this, h1, npGet, ha]
    · intro j y hy
      have := h4 j (sqDist y v) (by simp [hy])
      rw [← h3] at this
      simpa [sqDist_eq] using this

/-- Rounding one block: it succeeds and returns the nearest admissible block. -/
theorem round_flat_spec {k : Kind} (hnb : ∀ arms, k ≠ .bandit arms) (h : NonEmptyDom k) {v : Vec}
    (hv : v.length = width k) : ∃ b, k.round v = .ok (.flat b) ∧ Nearest k v b := by
  cases k with
  | continuous lo hi =>
    obtain ⟨x, rfl⟩ := List.length_eq_one_iff.1 hv
    obtain ⟨r, h1, h2⟩ := roundContinuous_spec (x := x) h
    exact ⟨[r], by simp [Kind.round, h1], h2⟩
  | discrete vals =>
    obtain ⟨x, rfl⟩ := List.length_eq_one_iff.1 hv
    obtain ⟨r, h1, h2⟩ := roundDiscrete_spec (x := x) h
    exact ⟨[r], by simp [Kind.round, h1], h2⟩
  | categorical labels =>
    obtain ⟨b, h1, h2⟩ := roundCategorical_spec h hv
    exact ⟨b, by simp [Kind.round, h1], h2⟩
  | bandit arms => exact absurd rfl (hnb arms)

theorem nearest_valid {k : Kind} {v b : Vec} (h : Nearest k v b) : ValidBlock k b := by
  cases k with
  | continuous lo hi => obtain ⟨x, r, _, rfl, h1, h2, _⟩ := h; exact ⟨r, rfl, h1, h2⟩
  | discrete vals => obtain ⟨x, r, i, _, rfl, h1, _⟩ := h; exact ⟨r, List.mem_of_getElem? h1, rfl⟩
  | categorical labels => obtain ⟨i, m, h1, rfl, _⟩ := h; exact ⟨i, h1, rfl⟩
  | bandit arms => obtain ⟨i, h1, _⟩ := h; exact List.mem_of_getElem? h1

theorem nearest_length {k : Kind} (hnb : ∀ arms, k ≠ .bandit arms) {v b : Vec}
    (h : Nearest k v b) : b.length = width k := by
  cases k with
  | continuous lo hi => obtain ⟨x, r, _, rfl, _⟩ := h; rfl
  | discrete vals => obtain ⟨x, r, i, _, rfl, _⟩ := h; rfl
  | categorical labels => obtain ⟨i, m, h1, rfl, _⟩ := h; simp [oneHot_length, width]
  | bandit arms => exact absurd rfl (hnb arms)

theorem validBlock_length {k : Kind} (hnb : ∀ arms, k ≠ .bandit arms) {b : Vec}
    (h : ValidBlock k b) : b.length = width k := by
  cases k with
  | continuous lo hi => obtain ⟨x, rfl, _⟩ := h; rfl
  | discrete vals => obtain ⟨x, _, rfl⟩ := h; rfl
  | categorical labels => obtain ⟨i, _, rfl⟩ := h; simp [oneHot_length, width]
  | bandit arms => exact absurd rfl (hnb arms)

/-- The nearest block of an admissible block is itself. -/
theorem nearest_self {k : Kind} (hnb : ∀ arms, k ≠ .bandit arms) {v b : Vec} (hv : ValidBlock k v)
    (h : Nearest k v b) : b = v := by
  cases k with
  | continuous lo hi =>
    obtain ⟨x, r, rfl, rfl, _, _, hmin⟩ := h
    obtain ⟨x', hx', h1, h2⟩ := hv
    simp at hx'; subst hx'
    have := hmin x h1 h2
    simp at this
    have : r - x = 0 := this
    rw [show r = x by linarith]
  | discrete vals =>
    obtain ⟨x, r, i, rfl, rfl, _, hmin⟩ := h
    obtain ⟨x', hx', he⟩ := hv
    simp at he; subst he
    obtain ⟨j, hj⟩ := List.getElem?_of_mem hx'
    have := (hmin j x hj).1
    simp at this
    have : r - x = 0 := this
    rw [show r = x by linarith]
  | categorical labels =>
    obtain ⟨i, m, hi, rfl, hm, hmin⟩ := h
    obtain ⟨k, hk, rfl⟩ := hv
    have hone : (oneHot labels.length k)[k]? = some 1 := by simp [oneHot, hk]
    have h1 := (hmin k 1 hone).1
    have hmv : m = if i = k then 1 else 0 := by
      simp [oneHot, hi] at hm
      exact hm.symm
    by_cases hik : i = k
    · rw [hik]
    · rw [if_neg hik] at hmv; subst hmv; norm_num at h1
  | bandit arms => exact absurd rfl (hnb arms)

theorem concatFlat_map (bs : List Vec) : concatFlat (bs.map .flat) = some bs.flatten := by
  induction bs with
  | nil => rfl
  | cons b bs ih => simp [concatFlat, ih]

theorem concatPieces_flat {bs : List Vec} (h : bs ≠ []) :
    concatPieces (bs.map .flat) = .ok [bs.flatten] := by
  cases bs with
  | nil => exact absurd rfl h
  | cons b bs =>
    have := concatFlat_map (b :: bs)
    simp only [List.map_cons] at this
    simp [concatPieces, this]

/-- Rounding a row given by its blocks. -/
theorem roundPieces_spec {vs : List EVar} (hnb : NoBandit (vs.map EVar.kind))
    (hne : ∀ k ∈ vs.map EVar.kind, NonEmptyDom k) {bin : List Vec}
    (h : List.Forall₂ (fun k b => b.length = width k) (vs.map EVar.kind) bin) : ∀ (pre suf : Vec),
    ∃ bout, roundPieces (pre ++ (bin.flatten ++ suf)) pre.length vs = .ok (bout.map .flat) ∧
      List.Forall₂ (fun kb b => Nearest kb.1 kb.2 b) ((vs.map EVar.kind).zip bin) bout := by
  induction vs generalizing bin with
  | nil => intro pre suf; cases h; exact ⟨[], rfl, .nil⟩
  | cons v vs ih =>
    intro pre suf
    obtain ⟨b, bin', hb, hbin, rfl⟩ := List.forall₂_cons_left_iff.1 h
    obtain ⟨r, hr1, hr2⟩ := round_flat_spec (hnb v.kind (by simp)) (hne v.kind (by simp)) hb
    obtain ⟨bout, h1, h2⟩ := ih (fun k hk => hnb k (by simp_all)) (fun k hk => hne k (by simp_all)) hbin
      (pre ++ b) suf
    refine ⟨r :: bout, ?_, .cons hr2 h2⟩
    have hs := slice_append_block pre b (bin'.flatten ++ suf)
    simp only [List.append_assoc, List.length_append] at h1
    simp only [List.flatten_cons, List.append_assoc, roundPieces, dimInModel_eq_width]
    rw [← hb, hs, hr1]
    simp [h1]

/-- Any vector of the right length splits into blocks of the widths of the variables. -/
theorem exists_blocks (ks : List Kind) : ∀ x : Vec, x.length = (ks.map width).sum →
    ∃ bin : List Vec, x = bin.flatten ∧ List.Forall₂ (fun k b => b.length = width k) ks bin := by
  induction ks with
  | nil => intro x h; exact ⟨[], by simpa using h, .nil⟩
  | cons k ks ih =>
    intro x h
    simp only [List.map_cons, List.sum_cons] at h
    obtain ⟨bin, h1, h2⟩ := ih (x.drop (width k)) (by simp [h])
    exact ⟨x.take (width k) :: bin, by simp [← h1], .cons (by simp [h]) h2⟩

theorem forall₂_zip_nearest_valid {ks : List Kind} {bin bout : List Vec}
    (hl : ks.length = bin.length)
    (h : List.Forall₂ (fun kb b => Nearest kb.1 kb.2 b) (ks.zip bin) bout) :
    List.Forall₂ ValidBlock ks bout := by
  induction ks generalizing bin bout with
  | nil => simp at h; subst h; exact .nil
  | cons k ks ih => cases bin with
    | nil => simp at hl
    | cons b bin =>
      rw [List.zip_cons_cons, List.forall₂_cons_left_iff] at h
      obtain ⟨b', bout', h1, h2, rfl⟩ := h
      exact .cons (nearest_valid h1) (ih (by simpa using hl) h2)

theorem forall₂_zip_nearest_self {ks : List Kind} (hnb : NoBandit ks) {bin bout : List Vec}
    (hv : List.Forall₂ ValidBlock ks bin)
    (h : List.Forall₂ (fun kb b => Nearest kb.1 kb.2 b) (ks.zip bin) bout) : bout = bin := by
  induction hv generalizing bout with
  | nil => simpa using h
  | @cons k b ks bin hb _ ih =>
    rw [List.zip_cons_cons, List.forall₂_cons_left_iff] at h
    obtain ⟨b', bout', h1, h2, rfl⟩ := h
    rw [nearest_self (hnb k (by simp)) hb h1, ih (fun k hk => hnb k (by simp [hk])) h2]

theorem modelDomain_length {ks : List Kind} (hnb : NoBandit ks) {z : Vec} (h : ModelDomain ks z) :
    z.length = (ks.map width).sum := by
  obtain ⟨bs, hb, rfl⟩ := h
  induction hb with
  | nil => rfl
  | @cons k b ks bs h1 _ ih =>
    have := ih (fun k hk => hnb k (by simp [hk]))
    simp [validBlock_length (hnb k (by simp)) h1] at this ⊢
    omega

/-! ## Construction of a space -/

/-- The kinds of the expanded variables of a space. -/
def Space.kinds (sp : Space) : List Kind := sp.expanded.map EVar.kind

theorem computeIndices_kinds (vs : List EVar) : ∀ o m,
    (computeIndices o m vs).map EVar.kind = vs.map EVar.kind := by
  induction vs with
  | nil => intros; rfl
  | cons v vs ih => intro o m; simp [computeIndices, ih]

theorem computeIndices_names (vs : List EVar) : ∀ o m,
    (computeIndices o m vs).map EVar.name = vs.map EVar.name := by
  induction vs with
  | nil => intros; rfl
  | cons v vs ih => intro o m; simp [computeIndices, ih]

theorem designSpace_ok {config : List Desc} {cs : Option (List ConstrDict)} {sp : Space}
    (h : designSpace config cs = .ok sp) :
    ∃ vars, translateSpace config = .ok vars ∧ sp.config = config ∧ sp.vars = vars ∧
      expandConfig config = .ok sp.configExpanded ∧
      sp.expanded = computeIndices 0 0 (vars.flatMap Var.expand) ∧
      sp.constraints = cs.map (List.map fixConstr) := by
  unfold designSpace at h
  cases h1 : translateSpace config with
  | error e => simp [h1] at h
  | ok vars =>
    cases h2 : expandConfig config with
    | error e => simp [h1, h2] at h
    | ok cx =>
      simp [h1, h2] at h
      subst h
      exact ⟨vars, rfl, rfl, rfl, rfl, rfl, rfl⟩

theorem expand_kinds (v : Var) : v.expand.map EVar.kind
    = List.replicate (if v.kind.isBandit then 1 else v.dimensionality) v.kind := by
  cases hk : v.kind <;> simp [Var.expand, hk, Kind.isBandit] <;>
    (apply List.ext_getElem <;> simp)

theorem space_kinds {config : List Desc} {cs : Option (List ConstrDict)} {sp : Space}
    (h : designSpace config cs = .ok sp) :
    sp.kinds = sp.vars.flatMap fun v =>
      List.replicate (if v.kind.isBandit then 1 else v.dimensionality) v.kind := by
  obtain ⟨vars, _, _, hv, _, he, _⟩ := designSpace_ok h
  rw [Space.kinds, he, computeIndices_kinds, hv, List.map_flatMap]
  congr 1
  funext v
  exact expand_kinds v

theorem space_noBandit {config : List Desc} {cs : Option (List ConstrDict)} {sp : Space}
    (h : designSpace config cs = .ok sp) (hb : sp.hasBandit = false) : NoBandit sp.kinds := by
  intro k hk arms he
  rw [space_kinds h, List.mem_flatMap] at hk
  obtain ⟨v, hv, hk⟩ := hk
  have := List.eq_of_mem_replicate hk
  unfold Space.hasBandit at hb
  rw [List.any_eq_false] at hb
  have h2 := hb v hv
  rw [← this, he] at h2
  exact h2 rfl

theorem modelDim_eq (sp : Space) : sp.modelDim = (sp.kinds.map width).sum := by
  unfold Space.modelDim Space.kinds
  rw [List.map_map]
  congr 1

end GPyOpt
