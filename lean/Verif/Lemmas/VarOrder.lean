import Verif.Spec.VarOrder
import Verif.Lemmas.Smaller
import Verif.Lemmas.Feasible

/-! # Lemmas about the order of the variables -/

namespace GPyOpt

open Spec Props

/-! ### Lists in another order -/

section

variable {α β γ : Type} {σ : List Nat}

theorem filterMap_get {l : List α} : ∀ {τ : List Nat}, (∀ i ∈ τ, i < l.length) → ∀ j : Nat,
    (τ.filterMap fun i => l[i]?)[j]? = τ[j]?.bind fun i => l[i]? := by
  intro τ
  induction τ with
  | nil => intro _ j; simp
  | cons i τ ih =>
    intro h j
    have hi := h i (by simp)
    rw [List.filterMap_cons, List.getElem?_eq_getElem hi]
    cases j with
    | zero => simp [List.getElem?_eq_getElem hi]
    | succ j => simpa using ih (fun i hi => h i (by simp [hi])) j

theorem order_lt {n : Nat} (h : σ.Perm (List.range n)) : ∀ i ∈ σ, i < n := fun _ hi =>
  List.mem_range.1 (h.mem_iff.1 hi)

theorem order_length {n : Nat} (h : σ.Perm (List.range n)) : σ.length = n := by rw [h.length_eq, List.length_range]

theorem arrange_get {l : List α} (h : σ.Perm (List.range l.length)) (j : Nat) :
    (arrange σ l)[j]? = σ[j]?.bind fun i => l[i]? := by
  unfold arrange
  rw [if_pos (order_length h).symm]
  exact filterMap_get (order_lt h) j

theorem arrange_length {l : List α} (h : σ.Perm (List.range l.length)) : (arrange σ l).length = l.length := by
  have h1 := arrange_get h
  have hl := order_length h
  apply le_antisymm
  · by_contra hlt
    push Not at hlt
    have := h1 l.length
    rw [List.getElem?_eq_getElem hlt, List.getElem?_eq_none (by omega)] at this
    simp at this
  · by_contra hlt
    push Not at hlt
    have := h1 (arrange σ l).length
    rw [List.getElem?_eq_none (le_refl _), List.getElem?_eq_getElem (by omega)] at this
    simp only [Option.bind_some] at this
    have := order_lt h _ (List.getElem_mem (l := σ) (by omega : (arrange σ l).length < σ.length))
    simp_all

theorem arrange_perm {l : List α} (h : σ.Perm (List.range l.length)) : (arrange σ l).Perm l := by
  unfold arrange
  rw [if_pos (order_length h).symm]
  refine (h.filterMap fun i => l[i]?).trans ?_
  have : (List.range l.length).filterMap (fun i => l[i]?) = l := by
    apply List.ext_getElem?
    intro j
    rw [filterMap_get (fun i hi => List.mem_range.1 hi)]
    by_cases hj : j < l.length
    · simp [hj]
    · simp [hj]
  rw [this]

theorem arrange_map (f : α → β) (l : List α) : arrange σ (l.map f) = (arrange σ l).map f := by
  unfold arrange
  rw [List.length_map]
  split_ifs
  · rw [List.map_filterMap]
    congr 1
    funext i
    simp
  · rfl

theorem arrange_zipWith (f : α → β → γ) {l : List α} {m : List β} (hlm : m.length = l.length)
    (h : σ.Perm (List.range l.length)) : arrange σ (List.zipWith f l m) = List.zipWith f (arrange σ l) (arrange σ m) := by
  apply List.ext_getElem?
  intro j
  rw [arrange_get (by simpa [hlm] using h), List.getElem?_zipWith, arrange_get h, arrange_get (by rw [hlm]; exact h)]
  cases hj : σ[j]? with
  | none => rfl
  | some i => simp [List.getElem?_zipWith]

theorem arrange_ext {l : List α} {m : List α} (h : σ.Perm (List.range l.length)) (hm : m.length = l.length)
    (he : ∀ j i : Nat, σ[j]? = some i → m[j]? = l[i]?) : m = arrange σ l := by
  apply List.ext_getElem?
  intro j
  rw [arrange_get h]
  cases hj : σ[j]? with
  | none =>
    rw [List.getElem?_eq_none]
    · rfl
    · have := List.getElem?_eq_none_iff.1 hj
      rw [order_length h] at this
      omega
  | some i => exact he j i hj

theorem arrange_inj {l m : List α} {n : Nat} (h : σ.Perm (List.range n)) (hl : l.length = n) (hm : m.length = n)
    (he : arrange σ l = arrange σ m) : l = m := by
  subst hl
  apply List.ext_getElem?
  intro i
  by_cases hi : i < l.length
  · obtain ⟨j, hj, hji⟩ := List.mem_iff_getElem.1 (h.mem_iff.2 (List.mem_range.2 hi))
    have h1 := arrange_get h j
    have h2 := arrange_get (σ := σ) (l := m) (by rw [hm]; exact h) j
    rw [he, h2] at h1
    rw [List.getElem?_eq_getElem hj, hji] at h1
    simpa using h1.symm
  · rw [List.getElem?_eq_none (by omega), List.getElem?_eq_none (by omega)]

theorem arrange_forall₂ {R : α → β → Prop} {l : List α} {m : List β} (h : σ.Perm (List.range l.length))
    (hr : List.Forall₂ R l m) : List.Forall₂ R (arrange σ l) (arrange σ m) := by
  have hlen := hr.length_eq
  rw [List.forall₂_iff_get] at hr ⊢
  have hm : σ.Perm (List.range m.length) := by rw [← hlen]; exact h
  refine ⟨by rw [arrange_length h, arrange_length hm, hlen], fun j h1 h2 => ?_⟩
  have g1 := arrange_get h j
  have g2 := arrange_get hm j
  rw [List.getElem?_eq_getElem h1] at g1
  rw [List.getElem?_eq_getElem h2] at g2
  cases hj : σ[j]? with
  | none => rw [hj] at g1; simp at g1
  | some i =>
    rw [hj] at g1 g2
    simp only [Option.bind_some] at g1 g2
    have hi : i < l.length := order_lt h i (List.mem_of_getElem? hj)
    rw [List.getElem?_eq_getElem hi] at g1
    rw [List.getElem?_eq_getElem (hlen ▸ hi)] at g2
    simp only [Option.some.injEq] at g1 g2
    simp only [List.get_eq_getElem] at hr ⊢
    rw [g1, g2]
    exact hr.2 i hi (hlen ▸ hi)

end

/-! ### Blocks -/

theorem blocksOf_spec : ∀ (ks : List Kind) (x : Vec), x.length = (ks.map width).sum →
    List.Forall₂ (fun k b => b.length = width k) ks (blocksOf ks x) ∧ (blocksOf ks x).flatten = x := by
  intro ks
  induction ks with
  | nil => intro x hx; exact ⟨.nil, by simp at hx; simp [blocksOf, hx]⟩
  | cons k ks ih =>
    intro x hx
    simp only [List.map_cons, List.sum_cons] at hx
    obtain ⟨h1, h2⟩ := ih (x.drop (width k)) (by simp [hx])
    exact ⟨.cons (by simp [hx]) h1, by simp [blocksOf, h2]⟩

theorem blocksOf_flatten {ks : List Kind} {bs : List Vec} (h : List.Forall₂ (fun k b => b.length = width k) ks bs) :
    blocksOf ks bs.flatten = bs := by
  induction h with
  | nil => rfl
  | @cons k b ks bs hb _ ih =>
    simp only [blocksOf, List.flatten_cons]
    rw [← hb, List.take_left', List.drop_left', ih] <;> rfl

theorem flatten_length_width {ks : List Kind} {bs : List Vec} (h : List.Forall₂ (fun k b => b.length = width k) ks bs) :
    bs.flatten.length = (ks.map width).sum := by
  induction h with
  | nil => rfl
  | @cons k b ks bs hb _ ih => simp [hb, ih]

/-- Decoding a block. -/
def decBlock (k : Kind) (b : Vec) : ℚ := match k with
  | .categorical _ => dotRange 0 b
  | _ => b.headD 0

theorem modelToObjectiveFrom_blocks {vs : List EVar} (hnb : NoBandit (vs.map EVar.kind)) {bs : List Vec}
    (h : List.Forall₂ (fun k b => b.length = width k) (vs.map EVar.kind) bs) : ∀ pre suf : Vec,
    modelToObjectiveFrom (pre ++ (bs.flatten ++ suf)) pre.length vs
      = .ok (List.zipWith decBlock (vs.map EVar.kind) bs) := by
  induction vs generalizing bs with
  | nil => intro pre suf; cases h; rfl
  | cons v vs ih =>
    intro pre suf
    obtain ⟨b, bs', hb, hbs, rfl⟩ := List.forall₂_cons_left_iff.1 h
    have hv : v.kind.modelToObjective (pre ++ (b ++ (bs'.flatten ++ suf))) pre.length = .ok (decBlock v.kind b) := by
      cases hk : v.kind with
      | continuous lo hi =>
        rw [hk] at hb
        obtain ⟨y, rfl⟩ := List.length_eq_one_iff.1 hb
        simp [Kind.modelToObjective, npGet, decBlock]
      | discrete vals =>
        rw [hk] at hb
        obtain ⟨y, rfl⟩ := List.length_eq_one_iff.1 hb
        simp [Kind.modelToObjective, npGet, decBlock]
      | categorical labels =>
        rw [hk] at hb
        have hb' : b.length = labels.length := hb
        simp only [Kind.modelToObjective, decBlock]
        rw [← hb', slice_append_block]
      | bandit arms => exact absurd hk (hnb v.kind (by simp) arms)
    have := ih (fun k hk => hnb k (by simp_all)) hbs (pre ++ b) suf
    simp only [List.append_assoc, List.length_append] at this
    simp only [List.flatten_cons, List.append_assoc, modelToObjectiveFrom, dimInModel_eq_width, hv, ← hb, this,
      List.map_cons, List.zipWith_cons_cons]

/-- Rounding a block. -/
noncomputable def roundBlock (k : Kind) (b : Vec) : Vec := match k.round b with
  | .ok (.flat r) => r
  | _ => []

theorem roundPieces_blocks {vs : List EVar} (hnb : NoBandit (vs.map EVar.kind))
    (hne : ∀ k ∈ vs.map EVar.kind, NonEmptyDom k) {bs : List Vec}
    (h : List.Forall₂ (fun k b => b.length = width k) (vs.map EVar.kind) bs) : ∀ pre suf : Vec,
    roundPieces (pre ++ (bs.flatten ++ suf)) pre.length vs
      = .ok ((List.zipWith roundBlock (vs.map EVar.kind) bs).map .flat) := by
  induction vs generalizing bs with
  | nil => intro pre suf; cases h; rfl
  | cons v vs ih =>
    intro pre suf
    obtain ⟨b, bs', hb, hbs, rfl⟩ := List.forall₂_cons_left_iff.1 h
    obtain ⟨r, hr1, hr2⟩ := round_flat_spec (hnb v.kind (by simp)) (hne v.kind (by simp)) hb
    have := ih (fun k hk => hnb k (by simp_all)) (fun k hk => hne k (by simp_all)) hbs (pre ++ b) suf
    have hs := slice_append_block pre b (bs'.flatten ++ suf)
    simp only [List.append_assoc, List.length_append] at this
    simp only [List.flatten_cons, List.append_assoc, roundPieces, dimInModel_eq_width]
    rw [← hb, hs, hr1]
    simp [this, roundBlock, hr1]

theorem roundBlock_width {k : Kind} (hnb : ∀ arms, k ≠ .bandit arms) (hne : NonEmptyDom k) {b : Vec}
    (hb : b.length = width k) : (roundBlock k b).length = width k := by
  obtain ⟨r, hr1, hr2⟩ := round_flat_spec hnb hne hb
  simp only [roundBlock, hr1]
  exact (Pinned.nearest_width hnb hr2)

/-- Encoding a value, if it has a code. -/
def encBlock (k : Kind) (x : ℚ) : Option Vec := match k.objectiveToModel x with
  | .ok b => some b
  | .error _ => none

theorem encBlock_width {k : Kind} {x : ℚ} {b : Vec} (h : encBlock k x = some b) : b.length = width k := by
  unfold encBlock Kind.objectiveToModel at h
  cases k with
  | continuous lo hi => simp at h; subst h; rfl
  | discrete vals => simp at h; subst h; rfl
  | categorical labels =>
    simp only at h
    cases hp : pyIndex labels.length (pyInt x) with
    | none => rw [hp] at h; simp at h
    | some i => rw [hp] at h; simp at h; subst h; simp [width]
  | bandit arms => simp at h

theorem objectiveToModelFrom_blocks {vs : List EVar} (hnb : NoBandit (vs.map EVar.kind)) : ∀ (pre z suf : Vec),
    z.length = vs.length →
    (∃ bs, List.Forall₂ (fun kx b => encBlock kx.1 kx.2 = some b) ((vs.map EVar.kind).zip z) bs ∧
      objectiveToModelFrom (pre ++ (z ++ suf)) pre.length vs = .ok bs.flatten) ∨
    (∃ kx ∈ (vs.map EVar.kind).zip z, encBlock kx.1 kx.2 = none) ∧
      objectiveToModelFrom (pre ++ (z ++ suf)) pre.length vs = .error .indexError := by
  induction vs with
  | nil =>
    intro pre z suf hz
    left
    exact ⟨[], by simp, rfl⟩
  | cons v vs ih =>
    intro pre z suf hz
    cases z with
    | nil => simp at hz
    | cons y z =>
      have hz' : z.length = vs.length := by simpa using hz
      have h1 := ih (fun k hk => hnb k (by simp_all)) (pre ++ [y]) z suf hz'
      simp only [List.append_assoc, List.singleton_append, List.length_append, List.length_singleton] at h1
      simp only [List.cons_append, objectiveToModelFrom, npGet_append_length, List.map_cons, List.zip_cons_cons]
      cases he : v.kind.objectiveToModel y with
      | error e =>
        right
        refine ⟨⟨(v.kind, y), by simp, by simp [encBlock, he]⟩, ?_⟩
        have : e = .indexError := by
          cases hk : v.kind with
          | continuous lo hi => rw [hk] at he; simp [Kind.objectiveToModel] at he
          | discrete vals => rw [hk] at he; simp [Kind.objectiveToModel] at he
          | categorical labels =>
            rw [hk] at he
            simp only [Kind.objectiveToModel] at he
            cases hp : pyIndex labels.length (pyInt y) with
            | none => rw [hp] at he; simpa using he.symm
            | some i => rw [hp] at he; simp at he
          | bandit arms => exact absurd hk (hnb v.kind (by simp) arms)
        simp [this]
      | ok b =>
        simp only
        rcases h1 with ⟨bs, g1, g2⟩ | ⟨⟨kx, g1, g2⟩, g3⟩
        · left
          exact ⟨b :: bs, .cons (by simp [encBlock, he]) g1, by simp [g2]⟩
        · right
          exact ⟨⟨kx, by simp [g1], g2⟩, by simp [g3]⟩

/-! ### Rows of a design -/

/-- Number of the choice made for a variable that is not continuous. -/
def choiceOf (l : List ℚ) (i : Nat) : ℚ := l.getD (i % l.length) 0

/-- The row of a design: `ch` numbers the choices, `des` holds the values of the continuous variables. -/
def rowList (ch : Nat → Nat) : Nat → Vec → List Kind → Vec
  | _, _, [] => []
  | i, des, .continuous _ _ :: ks => des.headD 0 :: rowList ch (i + 1) des.tail ks
  | i, des, .discrete l :: ks => choiceOf l (ch i) :: rowList ch (i + 1) des ks
  | i, des, .categorical l :: ks => choiceOf l (ch i) :: rowList ch (i + 1) des ks
  | i, des, .bandit _ :: ks => 0 :: rowList ch (i + 1) des ks

/-- A row with the choices filled in. -/
def fillList (ch : Nat → Nat) : Nat → List Kind → Vec → Vec
  | i, .discrete l :: ks, _ :: xs => choiceOf l (ch i) :: fillList ch (i + 1) ks xs
  | i, .categorical l :: ks, _ :: xs => choiceOf l (ch i) :: fillList ch (i + 1) ks xs
  | i, _ :: ks, x :: xs => x :: fillList ch (i + 1) ks xs
  | _, _, _ => []

theorem chooseFrom_choiceOf {l : List ℚ} (h : l ≠ []) (i : Nat) : chooseFrom l i = .ok (choiceOf l i) := by
  have := Nat.mod_lt i (List.length_pos_iff.2 h)
  simp [chooseFrom, choiceOf, List.getElem?_eq_getElem this, List.getD_eq_getElem?_getD]

theorem fillRow_list (d : Draw) (r : Nat) (vs : List EVar) :
    NoBandit (vs.map EVar.kind) → (∀ k ∈ vs.map EVar.kind, NonEmptyDom k) →
    ∀ (pre rest : Vec), rest.length = vs.length →
    fillRow d r pre.length vs (pre ++ rest)
      = .ok (pre ++ fillList (fun i => d.choice i r) pre.length (vs.map EVar.kind) rest) := by
  induction vs with
  | nil =>
    intro _ _ pre rest hl
    cases rest with
    | nil => rfl
    | cons _ _ => simp at hl
  | cons v vs ih =>
    intro hnb hs pre rest hl
    cases rest with
    | nil => simp at hl
    | cons x rest =>
      have hl' : rest.length = vs.length := by simpa using hl
      have step : ∀ y, fillRow d r (pre.length + 1) vs (pre ++ y :: rest)
          = .ok (pre ++ y :: fillList (fun i => d.choice i r) (pre.length + 1) (vs.map EVar.kind) rest) := by
        intro y
        have := ih (fun k hk => hnb k (by simp at hk ⊢; tauto))
          (fun k hk => hs k (by simp at hk ⊢; tauto)) (pre ++ [y]) rest hl'
        simpa using this
      have hs0 := hs v.kind (by simp)
      simp only [List.map_cons]
      unfold fillRow
      cases hk : v.kind with
      | continuous lo hi => simp only [step, fillList]
      | discrete vals =>
        rw [hk] at hs0
        simp only [chooseFrom_choiceOf hs0, setCol_append, step, fillList]
      | categorical labels =>
        rw [hk] at hs0
        simp only [chooseFrom_choiceOf hs0, setCol_append, step, fillList]
      | bandit arms => exact absurd hk (hnb v.kind (by simp) arms)

theorem scatter_list (ch : Nat → Nat) (ks : List Kind) : NoBandit ks → ∀ (pre rest design : Vec),
    rest.length = ks.length → design.length = (ks.filterMap contBound).length →
    scatter (contPos pre.length ks) design (pre ++ fillList ch pre.length ks rest)
      = .ok (pre ++ rowList ch pre.length design ks) := by
  induction ks with
  | nil =>
    intro _ pre rest design h1 h2
    simp [contPos, scatter, fillList, rowList]
  | cons k ks ih =>
    intro hnb pre rest design h1 h2
    cases rest with
    | nil => simp at h1
    | cons x rest =>
      have h1' : rest.length = ks.length := by simpa using h1
      have hnb' : NoBandit ks := fun k hk => hnb k (by simp [hk])
      rw [List.filterMap_cons] at h2
      cases hk : k with
      | continuous lo hi =>
        rw [hk] at h2
        cases design with
        | nil => simp [contBound] at h2
        | cons y design =>
          have := ih hnb' (pre ++ [y]) rest design h1' (by simpa [contBound] using h2)
          simp only [contPos, Kind.isContinuous, if_true, scatter, fillList, setCol_append, rowList,
            List.headD_cons, List.tail_cons]
          simpa using this
      | discrete l =>
        rw [hk] at h2
        have := ih hnb' (pre ++ [choiceOf l (ch pre.length)]) rest design h1' (by simpa [contBound] using h2)
        simpa [contPos, Kind.isContinuous, fillList, rowList] using this
      | categorical l =>
        rw [hk] at h2
        have := ih hnb' (pre ++ [choiceOf l (ch pre.length)]) rest design h1' (by simpa [contBound] using h2)
        simpa [contPos, Kind.isContinuous, fillList, rowList] using this
      | bandit arms => exact absurd hk (hnb k (by simp) arms)

theorem designRow_list {config : List Desc} {cs : Option (List ConstrDict)} {sp : Space}
    (h : designSpace config cs = .ok sp) (hb : sp.hasBandit = false)
    (hs : ∀ k ∈ sp.kinds, NonEmptyDom k) (d : Draw) (design : Nat → Vec) (r : Nat)
    (hdes : (design r).length = sp.getContinuousBounds.length) :
    designRow sp d design r = .ok (rowList (fun i => d.choice i r) 0 (design r) sp.kinds) := by
  have hnb := space_noBandit h hb
  rw [getContinuousBounds_eq h hb] at hdes
  have hel : (emptyRow sp d r).length = sp.expanded.length := by
    simp [emptyRow, dimensionality_eq h hb]
  have h1 := fillRow_list d r sp.expanded hnb hs [] (emptyRow sp d r) hel
  have h2 := scatter_list (fun i => d.choice i r) sp.kinds hnb [] (emptyRow sp d r) (design r)
    (by rw [hel, Space.kinds, List.length_map]) hdes
  simp only [List.nil_append, List.length_nil] at h1 h2
  unfold designRow
  rw [h1]
  simp only
  rw [OtherUnits.putContinuous_eq h hb]
  exact h2

/-- The value of variable number `i` of a row of a design, `c` being its number among the continuous ones. -/
def cellOf (ch : Nat → Nat) (g : ℚ × ℚ → ℚ → ℚ) (u : Nat → ℚ) (k : Kind) (i c : Nat) : ℚ := match k with
  | .continuous lo hi => g (lo, hi) (u c)
  | .discrete l => choiceOf l (ch i)
  | .categorical l => choiceOf l (ch i)
  | .bandit _ => 0

theorem contBefore_cons (k : Kind) (ks : List Kind) (j : Nat) :
    contBefore (k :: ks) (j + 1) = (if k.isContinuous then 1 else 0) + contBefore ks j := by
  unfold contBefore
  rw [List.take_succ_cons, List.filter_cons]
  split_ifs
  · simp [Nat.add_comm]
  · simp

theorem rowList_get (ch : Nat → Nat) (g : ℚ × ℚ → ℚ → ℚ) (ks : List Kind) : ∀ (i : Nat) (u : Nat → ℚ) (j : Nat),
    (rowList ch i ((ks.filterMap contBound).mapIdx fun c b => g b (u c)) ks)[j]?
      = ks[j]?.map fun k => cellOf ch g u k (i + j) (contBefore ks j) := by
  induction ks with
  | nil => intro i u j; simp [rowList]
  | cons k ks ih =>
    intro i u j
    cases k with
    | continuous lo hi =>
      simp only [List.filterMap_cons, contBound, List.mapIdx_cons, rowList, List.headD_cons, List.tail_cons]
      cases j with
      | zero => simp [cellOf, contBefore]
      | succ j =>
        have := ih (i + 1) (fun c => u (c + 1)) j
        rw [List.getElem?_cons_succ, this, List.getElem?_cons_succ, contBefore_cons]
        congr 1
        funext k
        simp only [Kind.isContinuous, if_true]
        cases k <;> simp only [cellOf]
        all_goals first | rw [Nat.add_comm 1] | rw [show i + 1 + j = i + (j + 1) by omega]
    | discrete l =>
      simp only [List.filterMap_cons, contBound, rowList]
      cases j with
      | zero => simp [cellOf]
      | succ j =>
        rw [List.getElem?_cons_succ, ih (i + 1) u j, List.getElem?_cons_succ, contBefore_cons,
          show i + 1 + j = i + (j + 1) by omega]
        simp [Kind.isContinuous]
    | categorical l =>
      simp only [List.filterMap_cons, contBound, rowList]
      cases j with
      | zero => simp [cellOf]
      | succ j =>
        rw [List.getElem?_cons_succ, ih (i + 1) u j, List.getElem?_cons_succ, contBefore_cons,
          show i + 1 + j = i + (j + 1) by omega]
        simp [Kind.isContinuous]
    | bandit l =>
      simp only [List.filterMap_cons, contBound, rowList]
      cases j with
      | zero => simp [cellOf]
      | succ j =>
        rw [List.getElem?_cons_succ, ih (i + 1) u j, List.getElem?_cons_succ, contBefore_cons,
          show i + 1 + j = i + (j + 1) by omega]
        simp [Kind.isContinuous]

theorem rowList_length (ch : Nat → Nat) (ks : List Kind) : ∀ (i : Nat) (des : Vec),
    (rowList ch i des ks).length = ks.length := by
  induction ks with
  | nil => intro i des; rfl
  | cons k ks ih =>
    intro i des
    cases k <;> simp [rowList, ih]

end GPyOpt
