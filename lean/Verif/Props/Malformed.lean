import Verif.Props.Space
import Mathlib.Algebra.Order.Floor.Ring
import Mathlib.Data.Rat.Floor

/-!
# C142: rows that do not fit the space

What encoding, decoding and rounding do with every row of numbers, not only with the points of the space. Ideally a row of
another width, or with a category that does not exist, is refused. The code refuses rows that are too short (with an
`IndexError`), but it ignores superfluous entries, takes negative categories from the end and cuts off fractions, and rounds
a truncated last category to a row that is too narrow.
-/

namespace GPyOpt.Props

open GPyOpt Spec

/-! ## Specification -/

/-- Values that encoding accepts: of a variable with `n` categories everything strictly between `-n-1` and `n`. -/
def Accepted : Kind → ℚ → Prop
  | .categorical labels, x => labels ≠ [] ∧ -(labels.length : ℚ) - 1 < x ∧ x < labels.length
  | .bandit _, _ => False
  | _, _ => True

/-- The value that an accepted value is taken for: fractions are cut off, and categories below zero are counted from the end. -/
def takenFor : Kind → ℚ → ℚ
  | .categorical labels, x =>
    if 0 ≤ x then (⌊x⌋ : ℚ) else if -1 < x then 0 else (labels.length : ℚ) + ⌈x⌉
  | _, x => x

/-- The entries of a row that belong to each variable; the last ones may be missing. -/
def blocksOf : List Kind → Vec → List Vec
  | [], _ => []
  | k :: ks, row => row.take (width k) :: blocksOf ks (row.drop (width k))

/-- The variable has a single column. -/
def Plain : Kind → Prop
  | .categorical _ => False
  | _ => True

instance : DecidablePred Plain := fun k => by cases k <;> unfold Plain <;> infer_instance

/-- The number that is read from a block: the entry itself, or the sum of the categories weighted with the entries. -/
def readBlock : Kind → Vec → ℚ
  | .categorical _, b => ((List.range b.length).map fun i : Nat => (i : ℚ) * b.getD i 0).sum
  | _, b => b.headD 0

/-! ## Encoding -/

theorem accepted_index {labels : List ℚ} {x : ℚ} (h : Accepted (.categorical labels) x) :
    ∃ i : Nat, pyIndex labels.length (pyInt x) = some i ∧ i < labels.length ∧
      takenFor (.categorical labels) x = (i : ℚ) := by
  obtain ⟨hne, h1, h2⟩ := h
  have hn : 0 < labels.length := List.length_pos_iff.2 hne
  unfold pyInt takenFor pyIndex
  by_cases h0 : 0 ≤ x
  · simp only [if_pos h0]
    have hf : 0 ≤ ⌊x⌋ := Int.floor_nonneg.2 h0
    have hlt : ⌊x⌋ < labels.length := by
      rw [Int.floor_lt]; exact_mod_cast h2
    rw [if_pos ⟨hf, hlt⟩]
    refine ⟨⌊x⌋.toNat, rfl, by omega, ?_⟩
    have : ((⌊x⌋.toNat : Int) : ℚ) = (⌊x⌋ : ℚ) := by rw [Int.toNat_of_nonneg hf]
    rw [← this]; norm_cast
  · simp only [if_neg h0]
    have hneg : x < 0 := not_le.1 h0
    by_cases hm : -1 < x
    · have hc : ⌈x⌉ = 0 := by
        rw [Int.ceil_eq_iff]; constructor
        · push_cast; linarith
        · push_cast; linarith
      rw [if_pos hm, hc, if_pos ⟨le_refl _, by omega⟩]
      exact ⟨0, rfl, hn, by simp⟩
    · have hle : x ≤ -1 := not_lt.1 hm
      have hc1 : ⌈x⌉ ≤ -1 := by rw [Int.ceil_le]; push_cast; exact hle
      have hc2 : -(labels.length : Int) ≤ ⌈x⌉ := by
        have : -(labels.length : Int) - 1 < ⌈x⌉ := by
          rw [Int.lt_ceil]; push_cast; exact h1
        omega
      rw [if_neg hm, if_neg (by omega), if_pos ⟨by omega, hc2⟩]
      refine ⟨(⌈x⌉ + labels.length).toNat, rfl, by omega, ?_⟩
      have : (((⌈x⌉ + labels.length).toNat : Int) : ℚ) = ((⌈x⌉ + labels.length : Int) : ℚ) := by
        rw [Int.toNat_of_nonneg (by omega)]
      rw [show (((⌈x⌉ + labels.length).toNat : Nat) : ℚ) = ((⌈x⌉ + labels.length : Int) : ℚ) from by
        rw [← this]; norm_cast]
      push_cast; ring

theorem refused_index {labels : List ℚ} {x : ℚ} (h : ¬ Accepted (.categorical labels) x) :
    pyIndex labels.length (pyInt x) = none := by
  unfold pyInt pyIndex
  by_cases h0 : 0 ≤ x
  · simp only [if_pos h0]
    have hf : 0 ≤ ⌊x⌋ := Int.floor_nonneg.2 h0
    have hge : (labels.length : Int) ≤ ⌊x⌋ := by
      rw [Int.le_floor]
      by_contra hlt
      have hlt : x < labels.length := by simpa using hlt
      refine h ⟨?_, ?_, hlt⟩
      · rintro rfl; simp at hlt; linarith
      · have : (0 : ℚ) ≤ labels.length := Nat.cast_nonneg _
        linarith
    rw [if_neg (by omega), if_neg (by omega)]
  · simp only [if_neg h0]
    have hneg : x < 0 := not_le.1 h0
    have hc0 : ⌈x⌉ ≤ 0 := by rw [Int.ceil_le]; push_cast; exact hneg.le
    by_cases hne : labels = []
    · subst hne
      simp only [List.length_nil, Nat.cast_zero, neg_zero]
      rw [if_neg (by omega), if_neg (by omega)]
    · have hn : 0 < labels.length := List.length_pos_iff.2 hne
      have hle : x ≤ -(labels.length : ℚ) - 1 := by
        by_contra hgt
        refine h ⟨hne, not_le.1 hgt, ?_⟩
        have : (0 : ℚ) < labels.length := by exact_mod_cast hn
        linarith
      have hc : ⌈x⌉ ≤ -(labels.length : Int) - 1 := by rw [Int.ceil_le]; push_cast; exact hle
      rw [if_neg (by omega), if_neg (by omega)]

theorem takenFor_encodable {k : Kind} {x : ℚ} (h : Accepted k x) : Encodable k (takenFor k x) := by
  cases k with
  | continuous lo hi => trivial
  | discrete vals => trivial
  | categorical labels =>
    obtain ⟨i, -, hi, he⟩ := accepted_index h
    exact ⟨i, hi, he⟩
  | bandit arms => exact h

theorem encode_accepted {k : Kind} {x : ℚ} (h : Accepted k x) :
    k.objectiveToModel x = .ok (encodeVal k (takenFor k x)) := by
  cases k with
  | continuous lo hi => rfl
  | discrete vals => rfl
  | categorical labels =>
    obtain ⟨i, h1, hi, he⟩ := accepted_index h
    simp only [Kind.objectiveToModel, h1, set_eq_oneHot, he, encodeVal_categorical]
  | bandit arms => exact absurd h id

theorem encode_refused {k : Kind} {x : ℚ} (hb : ∀ arms, k ≠ .bandit arms) (h : ¬ Accepted k x) :
    k.objectiveToModel x = .error .indexError := by
  cases k with
  | continuous lo hi => exact absurd trivial h
  | discrete vals => exact absurd trivial h
  | categorical labels => simp only [Kind.objectiveToModel, refused_index h]
  | bandit arms => exact absurd rfl (hb arms)

theorem encodeFrom_accepted (x : Vec) : ∀ (vs : List EVar) (k : Nat),
    List.Forall₂ Accepted (vs.map EVar.kind) ((x.drop k).take vs.length) →
    objectiveToModelFrom x k vs
      = .ok (encodeRow (vs.map EVar.kind) (List.zipWith takenFor (vs.map EVar.kind) (x.drop k))) := by
  intro vs
  induction vs with
  | nil => intro k _; rfl
  | cons v vs ih =>
    intro k h
    cases hx : x.drop k with
    | nil => rw [hx] at h; simp at h
    | cons a r =>
      have ha : npGet x k = .ok a := by
        rw [npGet_ok]
        have := congrArg (fun l => l[0]?) hx
        simpa using this
      have hr : x.drop (k + 1) = r := by
        rw [← List.drop_drop, hx]; rfl
      rw [hx] at h
      simp only [List.map_cons, List.length_cons, List.take_succ_cons, List.forall₂_cons] at h
      have hih := ih (k + 1) (by rw [hr]; exact h.2)
      rw [hr] at hih
      simp only [objectiveToModelFrom, ha, encode_accepted h.1, hih]
      rfl

theorem encodeFrom_refused (x : Vec) : ∀ (vs : List EVar) (k : Nat), NoBandit (vs.map EVar.kind) →
    ¬ List.Forall₂ Accepted (vs.map EVar.kind) ((x.drop k).take vs.length) →
    objectiveToModelFrom x k vs = .error .indexError := by
  intro vs
  induction vs with
  | nil => intro k _ h; exact absurd (by simp) h
  | cons v vs ih =>
    intro k hb h
    cases hx : x.drop k with
    | nil =>
      have : npGet x k = .error .indexError := by
        unfold npGet
        rw [List.getElem?_eq_none (by simpa using hx)]
      simp only [objectiveToModelFrom, this]
    | cons a r =>
      have ha : npGet x k = .ok a := by
        rw [npGet_ok]
        have := congrArg (fun l => l[0]?) hx
        simpa using this
      have hr : x.drop (k + 1) = r := by
        rw [← List.drop_drop, hx]; rfl
      rw [hx] at h
      simp only [List.map_cons, List.length_cons, List.take_succ_cons, List.forall₂_cons] at h
      simp only [objectiveToModelFrom, ha]
      by_cases hacc : Accepted v.kind a
      · rw [encode_accepted hacc]
        have := ih (k + 1) (fun q hq => hb q (by simp [hq])) (by rw [hr]; exact fun hh => h ⟨hacc, hh⟩)
        simp only [this]
      · rw [encode_refused (hb v.kind (by simp)) hacc]

/-- C142. Encoding any row of numbers: it is accepted exactly if it has an entry for every variable, and the entries of
categorical variables are strictly between `-n-1` and `n` for `n` categories; superfluous entries are ignored. Every other row
is an `IndexError`. -/
theorem C142_encode {config : List Desc} {cs : Option (List ConstrDict)} {sp : Space}
    (h : designSpace config cs = .ok sp) (hb : sp.hasBandit = false) (row : Vec) :
    (List.Forall₂ Accepted (kindsOf config) (row.take (kindsOf config).length) →
      sp.objectiveToModel row
        = .ok (encodeRow (kindsOf config) (List.zipWith takenFor (kindsOf config) row))) ∧
    (¬ List.Forall₂ Accepted (kindsOf config) (row.take (kindsOf config).length) →
      sp.objectiveToModel row = .error .indexError) := by
  have hk := space_kinds_eq h
  have hnb := space_noBandit h hb
  have hl : (kindsOf config).length = sp.expanded.length := by rw [← hk]; simp [Space.kinds]
  rw [hl]
  rw [hk] at hnb
  constructor
  · intro ha
    have := encodeFrom_accepted row sp.expanded 0
    rw [show sp.expanded.map EVar.kind = kindsOf config from hk] at this
    rw [sp.objectiveToModel_of hb]
    simpa using this (by simpa using ha)
  · intro ha
    have := encodeFrom_refused row sp.expanded 0
    rw [show sp.expanded.map EVar.kind = kindsOf config from hk] at this
    rw [sp.objectiveToModel_of hb]
    simpa using this hnb (by simpa using ha)

/-- C142: an array is encoded exactly if all its rows are accepted; otherwise `unzip_inputs` is an `IndexError`. -/
theorem C142_encode_array {config : List Desc} {cs : Option (List ConstrDict)} {sp : Space}
    (h : designSpace config cs = .ok sp) (hb : sp.hasBandit = false) (X : Mat) :
    ((∀ row ∈ X, List.Forall₂ Accepted (kindsOf config) (row.take (kindsOf config).length)) →
      sp.unzipInputs X = .ok (atleast2d (X.map fun row =>
        encodeRow (kindsOf config) (List.zipWith takenFor (kindsOf config) row)))) ∧
    (¬ (∀ row ∈ X, List.Forall₂ Accepted (kindsOf config) (row.take (kindsOf config).length)) →
      sp.unzipInputs X = .error .indexError) := by
  unfold Space.unzipInputs
  rw [if_neg (by simp [hb])]
  constructor
  · intro ha
    rw [mapE_map_ok fun row hr => (C142_encode h hb row).1 (ha row hr)]
    rfl
  · intro ha
    have : mapE sp.objectiveToModel X = .error .indexError := by
      induction X with
      | nil => exact absurd (by simp) ha
      | cons r X ih =>
        by_cases hr : List.Forall₂ Accepted (kindsOf config) (r.take (kindsOf config).length)
        · simp only [mapE, (C142_encode h hb r).1 hr]
          rw [ih fun hall => ha fun row hrow => by
            rcases List.mem_cons.1 hrow with rfl | hrow
            · exact hr
            · exact hall row hrow]
        · simp only [mapE, (C142_encode h hb r).2 hr]
    rw [this]; rfl

theorem zipWith_takenFor {ks : List Kind} {row : Vec} (h : List.Forall₂ Accepted ks (row.take ks.length)) :
    List.Forall₂ Encodable ks (List.zipWith takenFor ks row) := by
  induction ks generalizing row with
  | nil => simp
  | cons k ks ih =>
    cases row with
    | nil => simp at h
    | cons a r =>
      simp only [List.length_cons, List.take_succ_cons, List.forall₂_cons] at h
      simp only [List.zipWith_cons_cons, List.forall₂_cons]
      exact ⟨takenFor_encodable h.1, ih h.2⟩

/-- C142: an accepted row comes back from encoding and decoding as the row of the values it is taken for. This is the row
itself exactly if it has no superfluous entry and all its categories exist. -/
theorem C142_silent_change {config : List Desc} {cs : Option (List ConstrDict)} {sp : Space}
    (h : designSpace config cs = .ok sp) (hb : sp.hasBandit = false) (row : Vec)
    (hrow : List.Forall₂ Accepted (kindsOf config) (row.take (kindsOf config).length)) :
    ∃ z, sp.unzipInputs [row] = .ok [z] ∧
      sp.zipInputs [z] = .ok [List.zipWith takenFor (kindsOf config) row] ∧
      (List.zipWith takenFor (kindsOf config) row = row ↔ List.Forall₂ Encodable (kindsOf config) row) := by
  have hE := zipWith_takenFor hrow
  have h1 := (C142_encode_array h hb [row]).1 (by simpa using hrow)
  have h2 := C01_zip_unzip h hb [List.zipWith takenFor (kindsOf config) row] (by simp) (by simpa using hE)
  refine ⟨_, h1, by simpa using h2.2, fun he => he ▸ hE, fun hall => ?_⟩
  clear h1 h2 hE hrow h
  generalize kindsOf config = ks at hall
  induction hall with
  | nil => rfl
  | @cons k x ks row hx _ ih =>
    rw [List.zipWith_cons_cons, ih]
    congr 1
    cases k with
    | continuous lo hi => rfl
    | discrete vals => rfl
    | categorical labels =>
      obtain ⟨i, hi, rfl⟩ := hx
      have : (0 : ℚ) ≤ (i : ℚ) := Nat.cast_nonneg i
      simp [takenFor, this]
    | bandit arms => exact absurd hx id

/-! ## Decoding -/

theorem dotRange_eq (b : Vec) : ∀ s : Nat,
    dotRange s b = ((List.range b.length).map fun i : Nat => ((s + i : Nat) : ℚ) * b.getD i 0).sum := by
  induction b with
  | nil => intro s; rfl
  | cons y ys ih =>
    intro s
    rw [dotRange, ih (s + 1), List.length_cons, List.range_succ_eq_map, List.map_cons, List.map_map,
      List.sum_cons]
    have : ∀ i ∈ List.range ys.length, ((s + 1 + i : Nat) : ℚ) * ys.getD i 0
        = ((fun i : Nat => ((s + i : Nat) : ℚ) * (y :: ys).getD i 0) ∘ Nat.succ) i := by
      intro i _
      simp only [Function.comp, List.getD_cons_succ]
      congr 2
      omega
    rw [List.map_congr_left this]
    simp

theorem decodeFrom_char (x : Vec) : ∀ (vs : List EVar) (idx : Nat), NoBandit (vs.map EVar.kind) →
    modelToObjectiveFrom x idx vs
      = if ∀ p ∈ (vs.map EVar.kind).zip (blocksOf (vs.map EVar.kind) (x.drop idx)), p.2 = [] → ¬ Plain p.1
        then (.ok (List.zipWith readBlock (vs.map EVar.kind) (blocksOf (vs.map EVar.kind) (x.drop idx))) : Py Vec)
        else .error .indexError := by
  intro vs
  induction vs with
  | nil => intro idx _; simp [modelToObjectiveFrom, blocksOf]
  | cons v vs ih =>
    intro idx hb
    have hih := ih (idx + v.kind.dimInModel) (fun q hq => hb q (by simp [hq]))
    rw [← List.drop_drop, dimInModel_eq_width] at hih
    simp only [List.map_cons, blocksOf, List.zip_cons_cons, List.zipWith_cons_cons, List.mem_cons,
      forall_eq_or_imp]
    have hkind : v.kind.modelToObjective x idx
        = if ((x.drop idx).take (width v.kind) = [] → ¬ Plain v.kind)
          then .ok (readBlock v.kind ((x.drop idx).take (width v.kind))) else .error .indexError := by
      have hplain : ∀ k : Kind, Plain k → width k = 1 → (∀ b, readBlock k b = b.headD 0) → npGet x idx
          = if ((x.drop idx).take (width k) = [] → ¬ Plain k)
            then .ok (readBlock k ((x.drop idx).take (width k))) else .error .indexError := by
        intro k hk hw hr
        rw [hr, hw]
        cases hd : x.drop idx with
        | nil =>
          unfold npGet
          rw [List.getElem?_eq_none (by simpa using hd)]
          simp [hk]
        | cons a r =>
          have ha : npGet x idx = .ok a := by
            rw [npGet_ok]
            have := congrArg (fun l => l[0]?) hd
            simpa using this
          rw [ha]; simp
      cases hk : v.kind with
      | continuous lo hi => exact hplain _ trivial rfl fun _ => rfl
      | discrete vals => exact hplain _ trivial rfl fun _ => rfl
      | categorical labels =>
        rw [if_pos (show _ → ¬ Plain (.categorical labels) from fun _ hc => hc)]
        simp only [Kind.modelToObjective, readBlock, slice, dotRange_eq, width, Nat.zero_add]
      | bandit arms => exact absurd hk (hb _ (by simp) arms)
    simp only [modelToObjectiveFrom, hkind, dimInModel_eq_width, hih]
    by_cases h1 : ((x.drop idx).take (width v.kind) = [] → ¬ Plain v.kind)
    · simp only [if_pos h1]
      by_cases h2 : ∀ p ∈ (vs.map EVar.kind).zip (blocksOf (vs.map EVar.kind) ((x.drop idx).drop (width v.kind))),
          p.2 = [] → ¬ Plain p.1
      · rw [if_pos h2, if_pos ⟨h1, h2⟩]
      · rw [if_neg h2, if_neg fun hc => h2 hc.2]
    · simp only [if_neg h1]
      rw [if_neg fun hc => h1 hc.1]

/-- C142. Decoding any row of numbers: it is refused, with an `IndexError`, exactly if the entry of a variable with a single
column is missing. Otherwise the single columns are copied, and a categorical variable gets the sum of the category numbers
weighted with its entries, whether or not these are a one-hot vector or complete. -/
theorem C142_decode {config : List Desc} {cs : Option (List ConstrDict)} {sp : Space}
    (h : designSpace config cs = .ok sp) (hb : sp.hasBandit = false) (row : Vec) :
    sp.modelToObjective row
      = if ∀ p ∈ (kindsOf config).zip (blocksOf (kindsOf config) row), p.2 = [] → ¬ Plain p.1
        then .ok (List.zipWith readBlock (kindsOf config) (blocksOf (kindsOf config) row))
        else .error .indexError := by
  have hnb := space_noBandit h hb
  have := decodeFrom_char row sp.expanded 0 hnb
  rw [show sp.expanded.map EVar.kind = kindsOf config from space_kinds_eq h] at this
  exact this

/-! ## Rounding -/

/-- The exception of rounding a variable whose entries are all missing. -/
def missingErr : Kind → Err
  | .categorical _ => .valueError
  | _ => .indexError

theorem round_empty {k : Kind} (hb : ∀ arms, k ≠ .bandit arms) : k.round [] = .error (missingErr k) := by
  cases k with
  | bandit arms => exact absurd rfl (hb arms)
  | _ => rfl

theorem round_nonempty {k : Kind} (hb : ∀ arms, k ≠ .bandit arms) (hne : NonEmptyDom k) {b : Vec} (h : b ≠ [])
    (hw : b.length ≤ width k) : ∃ r : Vec, k.round b = .ok (.flat r) ∧ r.length = b.length := by
  obtain ⟨a, t, rfl⟩ := List.exists_cons_of_ne_nil h
  have ha : npGet (a :: t) 0 = .ok a := rfl
  cases k with
  | continuous lo hi =>
    have : t = [] := by simp [width] at hw; exact hw
    subst this
    exact ⟨[if a < lo then lo else if hi < a then hi else a], by simp [Kind.round, roundContinuous, ha], rfl⟩
  | discrete vals =>
    have : t = [] := by simp [width] at hw; exact hw
    subst this
    obtain ⟨d, ds, rfl⟩ := List.exists_cons_of_ne_nil hne
    have hd : npGet (d :: ds) 0 = .ok d := rfl
    exact ⟨[roundDiscreteLoop a (d :: ds) d], by simp [Kind.round, roundDiscrete, ha, hd], rfl⟩
  | categorical labels =>
    exact ⟨_, by simp [Kind.round, roundCategorical, argmax]; rfl, by simp⟩
  | bandit arms => exact absurd rfl (hb arms)

theorem width_pos_of {k : Kind} (hb : ∀ arms, k ≠ .bandit arms) (hne : NonEmptyDom k) : 0 < width k := by
  cases k with
  | categorical labels => exact List.length_pos_iff.2 hne
  | bandit arms => exact absurd rfl (hb arms)
  | _ => exact Nat.one_pos

theorem roundPieces_char (x : Vec) : ∀ (vs : List EVar) (idx : Nat), NoBandit (vs.map EVar.kind) →
    (∀ v ∈ vs, NonEmptyDom v.kind) →
    (((vs.map EVar.kind).dropLast.map width).sum < (x.drop idx).length ∨ vs = [] →
      ∃ bs : List Vec, roundPieces x idx vs = .ok (bs.map .flat) ∧ bs.length = vs.length ∧
        bs.flatten.length = min (x.drop idx).length ((vs.map EVar.kind).map width).sum) ∧
    (∀ (i : Nat) (k : Kind), (vs.map EVar.kind)[i]? = some k →
      (((vs.map EVar.kind).take i).map width).sum ≥ (x.drop idx).length →
      (∀ j < i, (((vs.map EVar.kind).take j).map width).sum < (x.drop idx).length) →
      roundPieces x idx vs = .error (missingErr k)) := by
  intro vs
  induction vs with
  | nil =>
    intro idx _ _
    exact ⟨fun _ => ⟨[], rfl, rfl, by simp⟩, fun i k hk => by simp at hk⟩
  | cons v vs ih =>
    intro idx hb hne
    have hbv := hb v.kind (by simp)
    have hnv := hne v (by simp)
    have hw := width_pos_of hbv hnv
    obtain ⟨ih1, ih2⟩ := ih (idx + v.kind.dimInModel) (fun q hq => hb q (by simp [hq]))
      (fun u hu => hne u (by simp [hu]))
    rw [← List.drop_drop, dimInModel_eq_width] at ih1 ih2
    have hstep : ∀ (hx : x.drop idx ≠ []), ∃ r : Vec, v.kind.round (slice x idx (width v.kind)) = .ok (.flat r) ∧
        r.length = min (width v.kind) (x.drop idx).length := by
      intro hx
      have : slice x idx (width v.kind) ≠ [] := by
        unfold slice
        intro hc
        rcases List.take_eq_nil_iff.1 hc with h0 | h0
        · omega
        · exact hx h0
      obtain ⟨r, h1, h2⟩ := round_nonempty hbv hnv this (by simp [slice])
      exact ⟨r, h1, by rw [h2]; simp [slice]⟩
    refine ⟨fun hlen => ?_, fun i k hk hge hlt => ?_⟩
    · have hx : x.drop idx ≠ [] := by
        intro hc
        rw [hc] at hlen
        simp at hlen
      obtain ⟨r, hr1, hr2⟩ := hstep hx
      have hrest : ((vs.map EVar.kind).dropLast.map width).sum < ((x.drop idx).drop (width v.kind)).length
          ∨ vs = [] := by
        cases vs with
        | nil => exact .inr rfl
        | cons u us =>
          left
          rcases hlen with hlen | hlen
          · rw [List.map_cons, List.map_cons, List.dropLast_cons_cons] at hlen
            simp only [List.map_cons, List.sum_cons] at hlen ⊢
            rw [List.length_drop (l := x.drop idx)]
            omega
          · simp at hlen
      obtain ⟨bs, hb1, hb2, hb3⟩ := ih1 hrest
      refine ⟨r :: bs, ?_, by simp [hb2], ?_⟩
      · simp only [roundPieces, dimInModel_eq_width, hr1, hb1, List.map_cons]
      · rw [List.flatten_cons, List.length_append, hr2, hb3, List.length_drop (l := x.drop idx)]
        simp only [List.map_cons, List.sum_cons]
        omega
    · cases i with
      | zero =>
        have hx : x.drop idx = [] := by
          rw [← List.length_eq_zero_iff]; simpa using hge
        simp only [List.map_cons, List.getElem?_cons_zero, Option.some.injEq] at hk
        have : slice x idx (width v.kind) = [] := by simp [slice, hx]
        rw [← hk]
        simp only [roundPieces, dimInModel_eq_width, this, round_empty hbv]
      | succ i =>
        have hx : x.drop idx ≠ [] := by
          intro hc
          have := hlt 0 (by omega)
          rw [hc] at this
          simp at this
        obtain ⟨r, hr1, hr2⟩ := hstep hx
        have := ih2 i k (by simpa using hk)
          (by simp only [List.map_cons, List.take_succ_cons, List.sum_cons] at hge
              rw [List.length_drop (l := x.drop idx)]; omega)
          (by
            intro j hj
            have := hlt (j + 1) (by omega)
            simp only [List.map_cons, List.take_succ_cons, List.sum_cons] at this
            rw [List.length_drop (l := x.drop idx)]; omega)
        simp only [roundPieces, dimInModel_eq_width, hr1, this]

theorem concatFlat_flat (bs : List Vec) : concatFlat (bs.map .flat) = some bs.flatten := by
  induction bs with
  | nil => rfl
  | cons b bs ih => simp [concatFlat, ih]

/-- C142. Rounding any vector, in a space without bandit variables and empty domains: it is accepted if at least one entry of
the last variable is there. The result has as many columns as the vector, up to the width of the space: superfluous entries
are ignored, and a last categorical variable with missing entries gives a row that is too narrow. -/
theorem C142_round {config : List Desc} {cs : Option (List ConstrDict)} {sp : Space}
    (h : designSpace config cs = .ok sp) (hb : sp.hasBandit = false)
    (hne : ∀ k ∈ kindsOf config, NonEmptyDom k) (hvar : kindsOf config ≠ []) (x : Vec)
    (hx : ((kindsOf config).dropLast.map width).sum < x.length) :
    ∃ r, sp.roundOptimum x = .ok [r] ∧ r.length = min x.length ((kindsOf config).map width).sum := by
  have hk := space_kinds_eq h
  have hnb := space_noBandit h hb
  have hne' : ∀ v ∈ sp.expanded, NonEmptyDom v.kind := fun v hv =>
    hne _ (hk ▸ List.mem_map.2 ⟨v, hv, rfl⟩)
  have hc := (roundPieces_char x sp.expanded 0 hnb hne').1
  rw [show sp.expanded.map EVar.kind = kindsOf config from hk] at hc
  obtain ⟨bs, h1, h2, h3⟩ := hc (.inl (by simpa using hx))
  refine ⟨bs.flatten, ?_, by simpa using h3⟩
  unfold Space.roundOptimum
  rw [h1]
  have hbs : bs ≠ [] := by
    rintro rfl
    have : sp.expanded = [] := List.length_eq_zero_iff.1 (by simpa using h2.symm)
    exact hvar (by rw [← hk, Space.kinds, this]; rfl)
  obtain ⟨b, t, rfl⟩ := List.exists_cons_of_ne_nil hbs
  have := concatFlat_flat (b :: t)
  simp only [List.map_cons] at this ⊢
  simp only [concatPieces, this]

/-- C142. A vector without any entry of the last variable is refused: the first variable without an entry raises, an
`IndexError` if it has a single column and a `ValueError` if it is categorical. -/
theorem C142_round_refused {config : List Desc} {cs : Option (List ConstrDict)} {sp : Space}
    (h : designSpace config cs = .ok sp) (hb : sp.hasBandit = false)
    (hne : ∀ k ∈ kindsOf config, NonEmptyDom k) (x : Vec) (i : Nat) (k : Kind)
    (hi : (kindsOf config)[i]? = some k)
    (hx : x.length ≤ (((kindsOf config).take i).map width).sum)
    (hfirst : ∀ j < i, (((kindsOf config).take j).map width).sum < x.length) :
    sp.roundOptimum x = .error (missingErr k) := by
  have hk := space_kinds_eq h
  have hnb := space_noBandit h hb
  have hne' : ∀ v ∈ sp.expanded, NonEmptyDom v.kind := fun v hv =>
    hne _ (hk ▸ List.mem_map.2 ⟨v, hv, rfl⟩)
  have hc := (roundPieces_char x sp.expanded 0 hnb hne').2 i k
  rw [show sp.expanded.map EVar.kind = kindsOf config from hk] at hc
  unfold Space.roundOptimum
  rw [hc hi (by simpa using hx) (by simpa using hfirst)]

/-- C142: only an array with exactly one row can be rounded; every other number of rows is a `ValueError`. -/
theorem C142_round_one_row (sp : Space) (X : Mat) (hX : X.length ≠ 1) :
    sp.roundOptimum2d X = .error .valueError := by
  unfold Space.roundOptimum2d
  match X with
  | [] => rfl
  | [r] => exact absurd rfl hX
  | _ :: _ :: _ => rfl

/-- C142: without variables nothing can be rounded, the empty vector included. -/
theorem C142_round_no_variables {config : List Desc} {cs : Option (List ConstrDict)} {sp : Space}
    (h : designSpace config cs = .ok sp) (hvar : kindsOf config = []) (x : Vec) :
    sp.roundOptimum x = .error .valueError := by
  have : sp.expanded = [] := by
    have := space_kinds_eq h
    rw [hvar, Space.kinds, List.map_eq_nil_iff] at this
    exact this
  simp [Space.roundOptimum, this, roundPieces, concatPieces]

/-! ## What this means for the property -/

/-- C142 (partial): rows that are too short are refused by encoding. Missing: rows that are too long. -/
theorem C142_short_refused_partial {config : List Desc} {cs : Option (List ConstrDict)} {sp : Space}
    (h : designSpace config cs = .ok sp) (hb : sp.hasBandit = false) (row : Vec)
    (hs : row.length < (kindsOf config).length) : sp.unzipInputs [row] = .error .indexError := by
  refine (C142_encode_array h hb [row]).2 fun hc => ?_
  have := (hc row (by simp)).length_eq
  rw [List.length_take] at this
  omega

/-- The space of the examples: a number between 0 and 1, and three categories. -/
def exMixed : List Desc :=
  [{ name := some "x", type := some "continuous", domain := some (.flat [0, 1]) },
   { name := some "c", type := some "categorical", domain := some (.flat [5, 6, 7]) }]

example : ∃ sp, designSpace exMixed none = .ok sp ∧ sp.hasBandit = false ∧
    kindsOf exMixed = [.continuous 0 1, .categorical [5, 6, 7]] ∧ (∀ k ∈ kindsOf exMixed, NonEmptyDom k) := by
  refine ⟨_, rfl, by decide +kernel, rfl, ?_⟩
  intro k hk
  have : kindsOf exMixed = [.continuous 0 1, .categorical [5, 6, 7]] := rfl
  rw [this] at hk
  simp only [List.mem_cons, List.not_mem_nil, or_false] at hk
  rcases hk with rfl | rfl <;> simp [NonEmptyDom]

/-- C142 (negation): superfluous entries are ignored by encoding, decoding and rounding. -/
theorem C142_superfluous_counterexample :
    (designSpace exMixed none).map (fun sp => (sp.unzipInputs [[1/2, 2, 99]]).toOption)
      = .ok (some [[1/2, 0, 0, 1]]) ∧
    (designSpace exMixed none).map (fun sp => (sp.zipInputs [[1/2, 0, 0, 1, 99]]).toOption)
      = .ok (some [[1/2, 2]]) ∧
    (designSpace exMixed none).map (fun sp => (sp.roundOptimum [1/2, 0, 0, 1, 99]).toOption)
      = .ok (some [[1/2, 0, 0, 1]]) := by
  refine ⟨?_, ?_, ?_⟩ <;> decide +kernel

/-- C142 (negation): the categories -1 and 1.7 do not exist. They are encoded as the last and as the second category. -/
theorem C142_categories_counterexample :
    (designSpace exMixed none).map (fun sp => (sp.unzipInputs [[1/2, -1], [1/2, 17/10]]).toOption)
      = .ok (some [[1/2, 0, 0, 1], [1/2, 0, 1, 0]]) := by
  decide +kernel

/-- C142 (negation): a vector with two of the three entries of the categorical variable is rounded to a row that is no point
of the space. Decoding reads two ones as the sum of the categories, and 3, which does not exist, is possible. -/
theorem C142_truncated_counterexample :
    (designSpace exMixed none).map (fun sp => (sp.roundOptimum [1/2, 0, 1]).toOption)
      = .ok (some [[1/2, 0, 1]]) ∧
    (designSpace exMixed none).map (fun sp => (sp.zipInputs [[1/2, 0, 1, 1], [1/2]]).toOption)
      = .ok (some [[1/2, 3], [1/2, 0]]) := by
  refine ⟨?_, ?_⟩ <;> decide +kernel

end GPyOpt.Props
