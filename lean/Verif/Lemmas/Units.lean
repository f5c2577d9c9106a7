import Verif.Spec.Units
import Verif.Lemmas.Anchor

/-! # Lemmas about other units of the variables: rows, variables, designs, contexts -/

namespace GPyOpt

open Spec Props

/-! ## Rows -/

@[simp] theorem conv_one (x : ℚ) : conv (1, 0) x = x := by simp [conv]

theorem conv_lt {u : ℚ × ℚ} (h : 0 < u.1) {x y : ℚ} : conv u x < conv u y ↔ x < y := by
  simp [conv, h]

theorem conv_inj {u : ℚ × ℚ} (h : 0 < u.1) {x y : ℚ} : conv u x = conv u y ↔ x = y := by
  simp [conv, h.ne']

@[simp] theorem convRow_nil_left (x : Vec) : convRow [] x = x := by cases x <;> rfl

@[simp] theorem convRow_nil_right (us : List (ℚ × ℚ)) : convRow us [] = [] := by cases us <;> rfl

@[simp] theorem convRow_cons (u : ℚ × ℚ) (us : List (ℚ × ℚ)) (x : ℚ) (xs : Vec) :
    convRow (u :: us) (x :: xs) = conv u x :: convRow us xs := rfl

@[simp] theorem convRow_length (us : List (ℚ × ℚ)) : ∀ x, (convRow us x).length = x.length := by
  induction us with
  | nil => simp
  | cons u us ih => intro x; cases x <;> simp [ih]

theorem convRow_get (us : List (ℚ × ℚ)) : ∀ (x : Vec) (i : Nat),
    (convRow us x)[i]? = x[i]?.map (conv (us.getD i (1, 0))) := by
  induction us with
  | nil => intro x i; cases h : x[i]? <;> simp [h]
  | cons u us ih =>
    intro x i
    cases x with
    | nil => simp
    | cons a x =>
      cases i with
      | zero => simp
      | succ i => simpa using ih x i

theorem npGet_conv (us : List (ℚ × ℚ)) (x : Vec) (i : Nat) :
    npGet (convRow us x) i = (npGet x i).map (conv (us.getD i (1, 0))) := by
  simp only [npGet, convRow_get]
  cases x[i]? <;> rfl

theorem convRow_drop (us : List (ℚ × ℚ)) : ∀ (x : Vec) (i : Nat),
    (convRow us x).drop i = convRow (us.drop i) (x.drop i) := by
  induction us with
  | nil => simp
  | cons u us ih =>
    intro x i
    cases x with
    | nil => simp
    | cons a x =>
      cases i with
      | zero => simp
      | succ i => simpa using ih x i

theorem convRow_take (us : List (ℚ × ℚ)) : ∀ (x : Vec) (i : Nat),
    (convRow us x).take i = convRow (us.take i) (x.take i) := by
  induction us with
  | nil => simp
  | cons u us ih =>
    intro x i
    cases x with
    | nil => simp
    | cons a x =>
      cases i with
      | zero => simp
      | succ i => simpa using ih x i

theorem slice_conv (us : List (ℚ × ℚ)) (x : Vec) (i n : Nat) :
    slice (convRow us x) i n = convRow (slice us i n) (slice x i n) := by
  simp [slice, convRow_drop, convRow_take]

theorem convRow_append {us : List (ℚ × ℚ)} : ∀ {x : Vec}, us.length = x.length →
    ∀ (vs : List (ℚ × ℚ)) (y : Vec), convRow (us ++ vs) (x ++ y) = convRow us x ++ convRow vs y := by
  induction us with
  | nil =>
    intro x h vs y
    have : x = [] := List.length_eq_zero_iff.1 h.symm
    subst this
    simp
  | cons u us ih =>
    intro x h vs y
    cases x with
    | nil => simp at h
    | cons a x => simp [ih (by simpa using h)]

theorem convRow_ones (n : Nat) : ∀ x : Vec, convRow (List.replicate n (1, 0)) x = x := by
  induction n with
  | zero => simp
  | succ n ih => intro x; cases x <;> simp [List.replicate_succ, ih]

theorem convRow_inj {us : List (ℚ × ℚ)} (h : ∀ u ∈ us, (0 : ℚ) < u.1) {x y : Vec}
    (he : convRow us x = convRow us y) : x = y := by
  have hl : x.length = y.length := by simpa using congrArg List.length he
  apply List.ext_getElem? fun i => ?_
  have h1 := congrArg (fun l : Vec => l[i]?) he
  simp only [convRow_get] at h1
  have hp : 0 < (us.getD i (1, 0)).1 := by
    rw [List.getD_eq_getElem?_getD]
    cases hu : us[i]? with
    | none => simp
    | some u => exact h u (List.mem_of_getElem? hu)
  cases hx : x[i]? <;> cases hy : y[i]? <;> simp [hx, hy] at h1 ⊢
  exact (conv_inj hp).1 h1

theorem convRow_lt {us : List (ℚ × ℚ)} (h : ∀ u ∈ us, (0 : ℚ) < u.1) : ∀ {x y : Vec},
    convRow us x < convRow us y ↔ x < y := by
  induction us with
  | nil => simp
  | cons u us ih =>
    intro x y
    have h0 := h u (by simp)
    cases x with
    | nil => cases y <;> simp
    | cons a x =>
      cases y with
      | nil => simp
      | cons b y =>
        rw [convRow_cons, convRow_cons, List.cons_lt_cons_iff, List.cons_lt_cons_iff, conv_lt h0,
          conv_inj h0, ih (fun v hv => h v (by simp [hv]))]

theorem convRow_le {us : List (ℚ × ℚ)} (h : ∀ u ∈ us, (0 : ℚ) < u.1) {x y : Vec} :
    convRow us x ≤ convRow us y ↔ x ≤ y := by
  rw [← not_lt, ← not_lt, convRow_lt h]

theorem sortedUnique_conv {us : List (ℚ × ℚ)} (h : ∀ u ∈ us, (0 : ℚ) < u.1) (X : Mat) :
    sortedUnique (X.map (convRow us)) = (sortedUnique X).map (convRow us) := by
  unfold sortedUnique
  rw [List.dedup_map_of_injective (fun x y => convRow_inj h),
    List.map_insertionSort (r := (· ≤ ·)) (s := (· ≤ ·)) (convRow us) X.dedup
      (fun a _ b _ => (convRow_le h).symm)]

/-! ## One variable -/

theorem width_conv (u : ℚ × ℚ) (k : Kind) : width (convKind u k) = width k := by
  cases k <;> simp [convKind, width]

theorem dimInModel_width (k : Kind) : k.dimInModel = width k := by cases k <;> rfl

theorem dimInModel_conv (u : ℚ × ℚ) (k : Kind) : (convKind u k).dimInModel = k.dimInModel := by
  cases k <;> simp [convKind, Kind.dimInModel]

theorem objectiveToModel_conv {u : ℚ × ℚ} {k : Kind} (hu : UnitFor u k) (x : ℚ) :
    (convKind u k).objectiveToModel (conv u x)
      = (k.objectiveToModel x).map (convRow (List.replicate (width k) u)) := by
  cases k with
  | continuous lo hi => simp [convKind, Kind.objectiveToModel, width]
  | discrete vals => simp [convKind, Kind.objectiveToModel, width]
  | categorical labels =>
    obtain rfl : u = (1, 0) := hu.2
    simp only [convKind, conv_one, width]
    cases Kind.objectiveToModel (.categorical labels) x <;> simp [convRow_ones]
  | bandit arms => simp [convKind, Kind.objectiveToModel]

theorem foldl_min_conv {u : ℚ × ℚ} (h : 0 < u.1) (l : List ℚ) : ∀ x : ℚ,
    (l.map (conv u)).foldl (fun m y => if y < m then y else m) (conv u x)
      = conv u (l.foldl (fun m y => if y < m then y else m) x) := by
  induction l with
  | nil => intro x; rfl
  | cons a l ih =>
    intro x
    simp only [List.map_cons, List.foldl_cons, conv_lt h]
    split_ifs <;> exact ih _

theorem foldl_max_conv {u : ℚ × ℚ} (h : 0 < u.1) (l : List ℚ) : ∀ x : ℚ,
    (l.map (conv u)).foldl (fun m y => if m < y then y else m) (conv u x)
      = conv u (l.foldl (fun m y => if m < y then y else m) x) := by
  induction l with
  | nil => intro x; rfl
  | cons a l ih =>
    intro x
    simp only [List.map_cons, List.foldl_cons, conv_lt h]
    split_ifs <;> exact ih _

theorem getBounds_conv {u : ℚ × ℚ} {k : Kind} (hu : UnitFor u k) :
    (convKind u k).getBounds
      = k.getBounds.map (fun bs => bs.map fun b => (conv u b.1, conv u b.2)) := by
  cases k with
  | continuous lo hi => simp [convKind, Kind.getBounds]
  | discrete vals =>
    cases vals with
    | nil => simp [convKind, Kind.getBounds, pyMin, pyMax]
    | cons a l =>
      simp [convKind, Kind.getBounds, pyMin, pyMax, foldl_min_conv hu.1, foldl_max_conv hu.1]
  | categorical labels =>
    obtain rfl : u = (1, 0) := hu.2
    simp [convKind, Kind.getBounds]
  | bandit arms => exact hu.2.elim

theorem roundDiscreteLoop_conv {u : ℚ × ℚ} (h : 0 < u.1) (x : ℚ) (l : List ℚ) : ∀ r : ℚ,
    roundDiscreteLoop (conv u x) (l.map (conv u)) (conv u r) = conv u (roundDiscreteLoop x l r) := by
  induction l with
  | nil => intro r; rfl
  | cons d l ih =>
    intro r
    have e : ∀ y, |conv u y - conv u x| = u.1 * |y - x| := by
      intro y
      have : conv u y - conv u x = u.1 * (y - x) := by simp only [conv]; ring
      rw [this, abs_mul, abs_of_pos h]
    have : (|conv u d - conv u x| < |conv u r - conv u x|) ↔ (|d - x| < |r - x|) := by
      rw [e, e, mul_lt_mul_iff_right₀ h]
    simp only [List.map_cons, roundDiscreteLoop, this]
    split_ifs <;> exact ih _

theorem round_conv {u : ℚ × ℚ} {k : Kind} (hu : UnitFor u k) {v : Vec} (hv : v.length ≤ width k) :
    ∃ p : Py Vec, k.round v = p.map Piece.flat ∧
      (convKind u k).round (convRow (List.replicate (width k) u) v)
        = (p.map (List.map (conv u))).map Piece.flat ∧ ∀ r, p = .ok r → r.length = v.length := by
  cases k with
  | continuous lo hi =>
    refine ⟨roundContinuous lo hi v, rfl, ?_, ?_⟩
    · simp only [convKind, Kind.round, width, roundContinuous, npGet_conv]
      congr 1
      cases npGet v 0 with
      | error e => rfl
      | ok x =>
        simp only [List.replicate_one, List.getD_cons_zero, Except_map_ok, conv_lt hu.1]
        split_ifs <;> simp
    · intro r hr
      unfold roundContinuous at hr
      cases v with
      | nil => simp [npGet] at hr
      | cons x v =>
        simp only [npGet, List.getElem?_cons_zero, Except.ok.injEq] at hr
        subst hr
        simp only [width, List.length_cons] at hv
        simp only [List.length_cons, List.length_nil]
        omega
  | discrete vals =>
    refine ⟨roundDiscrete vals v, rfl, ?_, ?_⟩
    · simp only [convKind, Kind.round, width, roundDiscrete, npGet_conv]
      congr 1
      cases npGet v 0 with
      | error e => rfl
      | ok x =>
        simp only [List.replicate_one, List.getD_cons_zero, Except_map_ok]
        cases vals with
        | nil => simp [npGet]
        | cons a l =>
          simp only [npGet, List.map_cons, List.getElem?_cons_zero, Except_map_ok]
          congr 2
          exact roundDiscreteLoop_conv hu.1 x (a :: l) a
    · intro r hr
      unfold roundDiscrete at hr
      cases v with
      | nil => simp [npGet] at hr
      | cons x v =>
        cases vals with
        | nil => simp [npGet] at hr
        | cons a l =>
          simp only [npGet, List.getElem?_cons_zero, Except.ok.injEq] at hr
          subst hr
          simp only [width, List.length_cons] at hv
          simp only [List.length_cons, List.length_nil]
          omega
  | categorical labels =>
    obtain rfl : u = (1, 0) := hu.2
    refine ⟨roundCategorical v, rfl, ?_, ?_⟩
    · have : (conv (1, 0)) = id := funext fun x => by simp
      simp only [convKind, Kind.round, convRow_ones, this, List.map_id_fun]
      cases roundCategorical v <;> rfl
    · intro r hr
      unfold roundCategorical at hr
      cases ha : argmax v with
      | error e => rw [ha] at hr; simp at hr
      | ok i => rw [ha] at hr; simp at hr; subst hr; simp
  | bandit arms => exact hu.2.elim

/-! ## The variables of a space -/

/-- `ex'` are the variables `ex` in the units `us`. -/
inductive Rescaled : List (ℚ × ℚ) → List EVar → List EVar → Prop
  | nil : Rescaled [] [] []
  | cons {u : ℚ × ℚ} {us : List (ℚ × ℚ)} {v v' : EVar} {vs vs' : List EVar} :
      UnitFor u v.kind → v'.kind = convKind u v.kind → Rescaled us vs vs' →
      Rescaled (u :: us) (v :: vs) (v' :: vs')

namespace Rescaled

variable {us : List (ℚ × ℚ)} {ex ex' : List EVar}

theorem length (h : Rescaled us ex ex') : us.length = ex.length ∧ ex'.length = ex.length := by
  induction h with
  | nil => simp
  | cons _ _ _ ih => simp [ih]

theorem pos (h : Rescaled us ex ex') : ∀ u ∈ us, (0 : ℚ) < u.1 := by
  induction h with
  | nil => simp
  | cons h1 _ _ ih =>
    intro u hu
    rcases List.mem_cons.1 hu with rfl | hu
    · exact h1.1
    · exact ih u hu

theorem widths (h : Rescaled us ex ex') :
    ex'.map (fun v => v.kind.dimInModel) = ex.map (fun v => v.kind.dimInModel) := by
  induction h with
  | nil => rfl
  | cons _ h2 _ ih => simp [ih, h2, dimInModel_conv]

theorem colPos (h : Rescaled us ex ex') : ∀ u ∈ colUnits us (ex.map EVar.kind), (0 : ℚ) < u.1 := by
  induction h with
  | nil => simp [colUnits]
  | cons h1 _ _ ih =>
    intro u hu
    simp only [colUnits, List.map_cons, List.zipWith_cons_cons, List.flatten_cons,
      List.mem_append] at hu
    rcases hu with hu | hu
    · rw [List.eq_of_mem_replicate hu]; exact h1.1
    · exact ih u hu

theorem colLength (h : Rescaled us ex ex') :
    (colUnits us (ex.map EVar.kind)).length = (ex.map (fun v => v.kind.dimInModel)).sum := by
  induction h with
  | nil => rfl
  | cons _ _ _ ih =>
    simp only [colUnits, List.map_cons, List.zipWith_cons_cons, List.flatten_cons,
      List.length_append, List.length_replicate, List.sum_cons, dimInModel_width] at ih ⊢
    rw [ih]

theorem colUnits_cons (u : ℚ × ℚ) (us : List (ℚ × ℚ)) (k : Kind) (ks : List Kind) :
    colUnits (u :: us) (k :: ks) = List.replicate (width k) u ++ colUnits us ks := by
  simp [colUnits]

theorem toModel (x : Vec) (all : List (ℚ × ℚ)) (h : Rescaled us ex ex') : ∀ i, all.drop i = us →
    objectiveToModelFrom (convRow all x) i ex'
      = (objectiveToModelFrom x i ex).map (convRow (colUnits us (ex.map EVar.kind))) := by
  induction h with
  | nil => intro i _; simp [objectiveToModelFrom]
  | @cons u us v v' vs vs' h1 h2 _ ih =>
    intro i hi
    have hu : all.getD i (1, 0) = u := by
      rw [List.getD_eq_getElem?_getD, ← Nat.add_zero i, ← List.getElem?_drop, hi]
      rfl
    have hi' : all.drop (i + 1) = us := by
      rw [← List.drop_drop, hi]; rfl
    simp only [objectiveToModelFrom, npGet_conv, hu, h2, ih (i + 1) hi']
    cases npGet x i with
    | error e => rfl
    | ok xi =>
      simp only [Except_map_ok, objectiveToModel_conv h1]
      cases he : v.kind.objectiveToModel xi with
      | error e => rfl
      | ok entry =>
        have hl := objectiveToModel_length he
        simp only [Except_map_ok]
        cases objectiveToModelFrom x (i + 1) vs with
        | error e => rfl
        | ok rest =>
          simp only [Except_map_ok, List.map_cons, colUnits_cons]
          rw [convRow_append (by simp [hl])]

theorem toObjective (x : Vec) (all : List (ℚ × ℚ)) (h : Rescaled us ex ex') : ∀ i,
    all.drop i = colUnits us (ex.map EVar.kind) →
    modelToObjectiveFrom (convRow all x) i ex' = (modelToObjectiveFrom x i ex).map (convRow us) := by
  induction h with
  | nil => intro i _; simp [modelToObjectiveFrom]
  | @cons u us v v' vs vs' h1 h2 _ ih =>
    intro i hi
    rw [List.map_cons, colUnits_cons] at hi
    have hi' : all.drop (i + v.kind.dimInModel) = colUnits us (vs.map EVar.kind) := by
      rw [← List.drop_drop, hi, dimInModel_width, List.drop_left' (by simp)]
    have hk : (convKind u v.kind).modelToObjective (convRow all x) i
        = (v.kind.modelToObjective x i).map (conv u) := by
      have hu : ∀ n, width v.kind = n + 1 → all.getD i (1, 0) = u := by
        intro n hn
        rw [List.getD_eq_getElem?_getD, ← Nat.add_zero i, ← List.getElem?_drop, hi, hn]
        rfl
      cases hk : v.kind with
      | continuous lo hi =>
        simp only [convKind, Kind.modelToObjective, npGet_conv, hu 0 (by simp [hk, width])]
      | discrete vals =>
        simp only [convKind, Kind.modelToObjective, npGet_conv, hu 0 (by simp [hk, width])]
      | categorical labels =>
        rw [hk] at h1
        obtain rfl : u = (1, 0) := h1.2
        simp only [convKind, Kind.modelToObjective, slice_conv, Except_map_ok, conv_one]
        have : slice all i labels.length = List.replicate labels.length (1, 0) := by
          rw [slice, hi, hk]
          simp [width]
        rw [this, convRow_ones]
      | bandit arms => rw [hk] at h1; exact h1.2.elim
    simp only [modelToObjectiveFrom, h2, hk, dimInModel_conv, ih _ hi']
    cases v.kind.modelToObjective x i with
    | error e => rfl
    | ok entry =>
      simp only [Except_map_ok]
      cases modelToObjectiveFrom x (i + v.kind.dimInModel) vs <;> rfl

theorem bounds (h : Rescaled us ex ex') :
    (mapE (fun v : EVar => v.kind.getBounds) ex').map List.flatten
      = ((mapE (fun v : EVar => v.kind.getBounds) ex).map List.flatten).map
        (convBounds (colUnits us (ex.map EVar.kind))) := by
  induction h with
  | nil => simp [convBounds, colUnits]
  | @cons u us v v' vs vs' h1 h2 _ ih =>
    simp only [mapE, h2, getBounds_conv h1]
    cases hb : v.kind.getBounds with
    | error e => rfl
    | ok bs =>
      have hl : bs.length = width v.kind := by
        cases hk : v.kind with
        | continuous lo hi => rw [hk] at hb; simp [Kind.getBounds] at hb; subst hb; simp [width]
        | discrete vals =>
          rw [hk] at hb
          cases vals with
          | nil => simp [Kind.getBounds, pyMin] at hb
          | cons a l => simp [Kind.getBounds, pyMin, pyMax] at hb; subst hb; simp [width]
        | categorical labels => rw [hk] at hb; simp [Kind.getBounds] at hb; subst hb; simp [width]
        | bandit arms => rw [hk] at h1; exact h1.2.elim
      simp only [Except_map_ok, List.map_cons, colUnits_cons]
      cases h3 : mapE (fun v : EVar => v.kind.getBounds) vs with
      | error e =>
        rw [h3] at ih
        cases h4 : mapE (fun v : EVar => v.kind.getBounds) vs' with
        | error e' => rw [h4] at ih; simpa using ih
        | ok b => rw [h4] at ih; simp at ih
      | ok bss =>
        rw [h3] at ih
        cases h4 : mapE (fun v : EVar => v.kind.getBounds) vs' with
        | error e' => rw [h4] at ih; simp at ih
        | ok b =>
          rw [h4] at ih
          simp only [Except_map_ok, Except.ok.injEq] at ih
          simp only [Except_map_ok, Except.ok.injEq, List.flatten_cons, ih, convBounds]
          rw [List.zipWith_append (by simp [hl])]
          congr 1
          apply List.ext_getElem (by simp [hl])
          intro j g1 g2
          simp

theorem round (x : Vec) (all : List (ℚ × ℚ)) (h : Rescaled us ex ex') : ∀ i,
    all.drop i = colUnits us (ex.map EVar.kind) →
    i + (ex.map (fun v => v.kind.dimInModel)).sum ≤ x.length →
    ∃ p : Py (List Vec), roundPieces x i ex = p.map (List.map Piece.flat) ∧
      roundPieces (convRow all x) i ex'
        = (p.map (List.zipWith (fun u r => r.map (conv u)) us)).map (List.map Piece.flat) ∧
      ∀ rs, p = .ok rs → List.Forall₂ (fun k (r : Vec) => r.length = width k) (ex.map EVar.kind) rs := by
  induction h with
  | nil => intro i _ _; exact ⟨.ok [], rfl, rfl, by intro rs hrs; cases hrs; exact .nil⟩
  | @cons u us v v' vs vs' h1 h2 _ ih =>
    intro i hi hx
    rw [List.map_cons, colUnits_cons] at hi
    have hi' : all.drop (i + v.kind.dimInModel) = colUnits us (vs.map EVar.kind) := by
      rw [← List.drop_drop, hi, dimInModel_width, List.drop_left' (by simp)]
    rw [List.map_cons, List.sum_cons] at hx
    obtain ⟨p, hp1, hp2, hp3⟩ := ih (i + v.kind.dimInModel) hi' (by omega)
    have hs : slice all i (width v.kind) = List.replicate (width v.kind) u := by
      rw [slice, hi, List.take_left' (by simp)]
    have hsl : (slice x i (width v.kind)).length = width v.kind := by
      simp only [slice, List.length_take, List.length_drop]
      have := dimInModel_width v.kind
      omega
    obtain ⟨q, hq1, hq2, hq3⟩ := round_conv h1 (v := slice x i (width v.kind)) (by omega)
    simp only [roundPieces, h2, dimInModel_conv, hp1, hp2]
    rw [dimInModel_width, slice_conv, hs, hq1, hq2]
    cases q with
    | error e => exact ⟨.error e, rfl, rfl, by simp⟩
    | ok r =>
      cases p with
      | error e => exact ⟨.error e, rfl, rfl, by simp⟩
      | ok rs =>
        refine ⟨.ok (r :: rs), rfl, rfl, ?_⟩
        rintro _ ⟨⟩
        exact .cons ((hq3 r rfl).trans hsl) (hp3 rs rfl)

theorem concatFlat_flat (rs : List Vec) : concatFlat (rs.map Piece.flat) = some rs.flatten := by
  induction rs with
  | nil => rfl
  | cons r rs ih => simp [concatFlat, ih]

theorem concatPieces_flat (rs : List Vec) :
    concatPieces (rs.map Piece.flat) = if rs = [] then .error .valueError else .ok [rs.flatten] := by
  cases rs with
  | nil => rfl
  | cons r rs =>
    have := concatFlat_flat (r :: rs)
    simp only [List.map_cons] at this
    simp [concatPieces, this]

theorem flatten_conv {ks : List Kind} {rs : List Vec}
    (h : List.Forall₂ (fun k (r : Vec) => r.length = width k) ks rs) : ∀ us : List (ℚ × ℚ),
    us.length = ks.length →
    (List.zipWith (fun u r => r.map (conv u)) us rs).flatten = convRow (colUnits us ks) rs.flatten := by
  induction h with
  | nil => intro us _; simp
  | @cons k r ks rs h1 _ ih =>
    intro us hus
    cases us with
    | nil => simp at hus
    | cons u us =>
      rw [colUnits_cons, List.zipWith_cons_cons, List.flatten_cons, List.flatten_cons,
        ih us (by simpa using hus), convRow_append (by simp [h1])]
      congr 1
      apply List.ext_getElem? fun i => ?_
      rw [convRow_get, List.getElem?_map, ← h1]
      cases hr : r[i]? with
      | none => rfl
      | some a =>
        have := (List.getElem?_eq_some_iff.1 hr).1
        simp [this]

end Rescaled

end GPyOpt
