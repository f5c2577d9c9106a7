import Verif.Spec.Renumber
import Verif.Lemmas.OneValue
import Verif.Lemmas.Feasible

/-! # Lemmas about the numbers of the categories -/

namespace GPyOpt

open Spec Props

/-! ### Values -/

theorem renumber_nil (v : ℚ) : renumber [] v = v := by simp [renumber]

theorem renumber_nat {π : List Nat} {j : Nat} (h : j ∈ π) : renumber π (j : ℚ) = (π.idxOf j : ℚ) := by
  unfold renumber
  rw [if_pos (List.mem_map_of_mem h), Rat.num_natCast, Int.toNat_natCast]

theorem renumber_inj {n : Nat} {π : List Nat} (h : π.Perm (List.range n)) : Function.Injective (renumber π) := by
  have hn : π.Nodup := h.nodup_iff.2 List.nodup_range
  have key : ∀ v w : ℚ, v ∈ π.map (fun j : Nat => (j : ℚ)) → w ∉ π.map (fun j : Nat => (j : ℚ)) →
      renumber π v ≠ renumber π w := by
    intro v w hv hw he
    obtain ⟨j, hj, rfl⟩ := List.mem_map.1 hv
    rw [renumber_nat hj] at he
    unfold renumber at he
    rw [if_neg hw] at he
    apply hw
    rw [← he]
    refine List.mem_map.2 ⟨π.idxOf j, ?_, rfl⟩
    rw [h.mem_iff, List.mem_range]
    have := List.idxOf_lt_length_iff.2 hj
    rwa [h.length_eq, List.length_range] at this
  intro v w he
  by_cases hv : v ∈ π.map (fun j : Nat => (j : ℚ))
  · by_cases hw : w ∈ π.map (fun j : Nat => (j : ℚ))
    · obtain ⟨i, hi, rfl⟩ := List.mem_map.1 hv
      obtain ⟨j, hj, rfl⟩ := List.mem_map.1 hw
      rw [renumber_nat hi, renumber_nat hj, Nat.cast_inj] at he
      rw [(List.idxOf_inj hi).1 he]
    · exact absurd he (key v w hv hw)
  · by_cases hw : w ∈ π.map (fun j : Nat => (j : ℚ))
    · exact absurd he.symm (key w v hw hv)
    · unfold renumber at he
      rwa [if_neg hv, if_neg hw] at he

theorem codedBy_inj {k : Kind} {π : List Nat} (h : CodedBy k π) : Function.Injective (renumber π) := by
  cases k with
  | categorical l => exact renumber_inj h.1
  | _ =>
    have h0 : π = [] := h
    subst h0
    intro v w he
    rwa [renumber_nil, renumber_nil] at he

theorem renumberRow_length (πs : List (List Nat)) : ∀ x : Vec, (renumberRow πs x).length = x.length := by
  induction πs with
  | nil => intro x; cases x <;> rfl
  | cons π πs ih =>
    intro x
    cases x with
    | nil => rfl
    | cons v x => simp [renumberRow, ih]

theorem renumberRow_inj {ks : List Kind} {πs : List (List Nat)} (h : List.Forall₂ CodedBy ks πs) :
    Function.Injective (renumberRow πs) := by
  induction h with
  | nil =>
    intro x y he
    have : ∀ x : Vec, renumberRow [] x = x := fun x => by cases x <;> rfl
    rwa [this, this] at he
  | cons hk _ ih =>
    intro x y he
    cases x with
    | nil =>
      cases y with
      | nil => rfl
      | cons w y => simp [renumberRow] at he
    | cons v x =>
      cases y with
      | nil => simp [renumberRow] at he
      | cons w y =>
        simp only [renumberRow, List.cons.injEq] at he
        rw [codedBy_inj hk he.1, ih he.2]

/-! ### Blocks -/

theorem recodeBlock_nil (b : Vec) : recodeBlock [] b = b := by simp [recodeBlock]

theorem recodeBlock_oneHot {n j : Nat} {π : List Nat} (h : π.Perm (List.range n)) (hj : j < n) :
    recodeBlock π (oneHot n j) = oneHot n (π.idxOf j) := by
  have hl : π.length = n := by rw [h.length_eq, List.length_range]
  have hn : π.Nodup := h.nodup_iff.2 List.nodup_range
  have hne : π ≠ [] := by rintro rfl; simp at hl; omega
  have hm : j ∈ π := h.mem_iff.2 (List.mem_range.2 hj)
  unfold recodeBlock
  rw [if_neg hne]
  refine List.ext_getElem (by simp [oneHot, hl]) fun i h1 h2 => ?_
  rw [List.length_map] at h1
  have hlt : π[i] < n := List.mem_range.1 (h.mem_iff.1 (List.getElem_mem h1))
  have : π[i] = j ↔ i = π.idxOf j := by
    constructor
    · intro he
      rw [← he, hn.idxOf_getElem]
    · rintro rfl
      exact List.getElem_idxOf h1
  simp [oneHot, List.getD_eq_getElem?_getD, hlt, this]

/-- Blocks of encoded values. -/
def Coded : Kind → Vec → Prop
  | .categorical labels, b => ∃ j < labels.length, b = oneHot labels.length j
  | k, b => b.length = width k

theorem coded_width {k : Kind} {b : Vec} (h : Coded k b) : b.length = width k := by
  cases k with
  | categorical l => obtain ⟨j, -, rfl⟩ := h; exact oneHot_length _ _
  | _ => exact h

theorem recodeBlock_length {k : Kind} {π : List Nat} (h : CodedBy k π) {b : Vec} (hb : b.length = width k) :
    (recodeBlock π b).length = width k := by
  cases k with
  | categorical l =>
    unfold recodeBlock
    split_ifs with h0
    · exact hb
    · rw [List.length_map, h.1.length_eq, List.length_range]; rfl
  | _ =>
    have h0 : π = [] := h
    subst h0
    rwa [recodeBlock_nil]

theorem codedBy_lt {n j : Nat} {π : List Nat} (h : π.Perm (List.range n)) (hj : j < n) :
    j ∈ π ∧ π.idxOf j < n := by
  have hm : j ∈ π := h.mem_iff.2 (List.mem_range.2 hj)
  have := List.idxOf_lt_length_iff.2 hm
  rw [h.length_eq, List.length_range] at this
  exact ⟨hm, this⟩

theorem coded_recode {k : Kind} {π : List Nat} (h : CodedBy k π) {b : Vec} (hb : Coded k b) :
    Coded k (recodeBlock π b) := by
  cases k with
  | categorical l =>
    obtain ⟨j, hj, rfl⟩ := hb
    exact ⟨_, (codedBy_lt h.1 hj).2, recodeBlock_oneHot h.1 hj⟩
  | _ =>
    have h0 : π = [] := h
    subst h0
    rwa [recodeBlock_nil]

theorem encodable_renumber {k : Kind} {π : List Nat} (h : CodedBy k π) {v : ℚ} (hv : Encodable k v) :
    Encodable k (renumber π v) ∧ encodeVal k (renumber π v) = recodeBlock π (encodeVal k v) ∧ Coded k (encodeVal k v) := by
  cases k with
  | categorical l =>
    obtain ⟨j, hj, rfl⟩ := hv
    obtain ⟨h1, h2⟩ := codedBy_lt h.1 hj
    rw [renumber_nat h1, encodeVal_categorical, encodeVal_categorical, recodeBlock_oneHot h.1 hj]
    exact ⟨⟨_, h2, rfl⟩, rfl, ⟨j, hj, rfl⟩⟩
  | bandit a => exact hv.elim
  | _ =>
    have h0 : π = [] := h
    subst h0
    rw [renumber_nil, recodeBlock_nil]
    exact ⟨trivial, rfl, rfl⟩

theorem decBlock_recode {k : Kind} {π : List Nat} (h : CodedBy k π) (hnb : ∀ arms, k ≠ .bandit arms) {b : Vec}
    (hb : Coded k b) : decBlock k (recodeBlock π b) = renumber π (decBlock k b) ∧ Encodable k (decBlock k b) := by
  cases k with
  | categorical l =>
    obtain ⟨j, hj, rfl⟩ := hb
    obtain ⟨h1, h2⟩ := codedBy_lt h.1 hj
    rw [recodeBlock_oneHot h.1 hj]
    simp only [decBlock]
    rw [dotRange_oneHot hj, dotRange_oneHot h2, renumber_nat h1]
    exact ⟨rfl, j, hj, rfl⟩
  | bandit a => exact absurd rfl (hnb a)
  | _ =>
    have h0 : π = [] := h
    subst h0
    rw [renumber_nil, recodeBlock_nil]
    exact ⟨rfl, trivial⟩

/-- One entry of the block is the greatest, if the variable is categorical. -/
def Greatest (k : Kind) (b : Vec) : Prop := ∀ labels, k = .categorical labels →
  ∃ (i : Nat) (v : ℚ), b[i]? = some v ∧ ∀ (j : Nat) (w : ℚ), b[j]? = some w → j ≠ i → w < v

theorem coded_greatest {k : Kind} {b : Vec} (hb : Coded k b) : Greatest k b := by
  rintro l rfl
  obtain ⟨i, hi, rfl⟩ := hb
  refine ⟨i, 1, by simp [oneHot, hi], fun j w hw hj => ?_⟩
  simp only [oneHot, List.getElem?_map] at hw
  obtain ⟨a, ha, rfl⟩ := Option.map_eq_some_iff.1 hw
  have : j = a := by
    rw [List.getElem?_eq_some_iff] at ha
    obtain ⟨_, ha⟩ := ha
    simpa using ha
  subst this
  simp [hj]

theorem argmax_unique {b : Vec} {i : Nat} {v : ℚ} (hi : b[i]? = some v)
    (h : ∀ (j : Nat) (w : ℚ), b[j]? = some w → j ≠ i → w < v) : argmax b = .ok i := by
  have hne : b ≠ [] := by rintro rfl; simp at hi
  obtain ⟨i', v', h1, -, h3, h4⟩ := argmax_spec hne
  by_cases he : i' = i
  · rw [h1, he]
  · have := h i' v' h3 he
    exact absurd (h4 i v hi).1 (not_le.2 this)

theorem roundBlock_recode {k : Kind} {π : List Nat} (h : CodedBy k π) (hnb : ∀ arms, k ≠ .bandit arms)
    (hne : NonEmptyDom k) {b : Vec} (hb : b.length = width k) (hg : Greatest k b) :
    roundBlock k (recodeBlock π b) = recodeBlock π (roundBlock k b) ∧ Coded k (roundBlock k b) := by
  cases k with
  | categorical l =>
    obtain ⟨i, v, h1, h2⟩ := hg l rfl
    have hb : b.length = l.length := hb
    have hi : i < l.length := hb ▸ (List.getElem?_eq_some_iff.1 h1).1
    obtain ⟨m1, m2⟩ := codedBy_lt h.1 hi
    have hπ : π ≠ [] := by rintro rfl; simp at m1
    have hn : π.Nodup := h.1.nodup_iff.2 List.nodup_range
    have hlen : (recodeBlock π b).length = l.length := recodeBlock_length (k := .categorical l) h hb
    have e1 : roundBlock (.categorical l) b = oneHot l.length i := by
      simp [roundBlock, Kind.round, roundCategorical, argmax_unique h1 h2, set_eq_oneHot, hb]
    have get : ∀ j : Nat, (recodeBlock π b)[j]? = (π[j]?).map fun a => b.getD a 0 := by
      intro j; simp [recodeBlock, hπ]
    have e2 : argmax (recodeBlock π b) = .ok (π.idxOf i) := by
      refine argmax_unique (v := v) ?_ ?_
      · rw [get, List.getElem?_idxOf m1]
        simp [List.getD_eq_getElem?_getD, h1]
      · intro j w hw hj
        rw [get] at hw
        obtain ⟨a, ha, rfl⟩ := Option.map_eq_some_iff.1 hw
        obtain ⟨hjl, ha'⟩ := List.getElem?_eq_some_iff.1 ha
        have hal : a < b.length := by
          rw [hb]; exact List.mem_range.1 (h.1.mem_iff.1 (List.mem_of_getElem? ha))
        have : b[a]? = some (b.getD a 0) := by
          simp [List.getD_eq_getElem?_getD, List.getElem?_eq_getElem hal]
        refine h2 a _ this ?_
        rintro rfl
        apply hj
        rw [← ha', hn.idxOf_getElem j hjl]
    have e3 : roundBlock (.categorical l) (recodeBlock π b) = oneHot l.length (π.idxOf i) := by
      simp [roundBlock, Kind.round, roundCategorical, e2, set_eq_oneHot, hlen]
    rw [e1, e3, recodeBlock_oneHot h.1 hi]
    exact ⟨rfl, i, hi, rfl⟩
  | bandit a => exact absurd rfl (hnb a)
  | continuous lo hi =>
    have h0 : π = [] := h
    subst h0
    rw [recodeBlock_nil, recodeBlock_nil]
    exact ⟨rfl, roundBlock_width hnb hne hb⟩
  | discrete l =>
    have h0 : π = [] := h
    subst h0
    rw [recodeBlock_nil, recodeBlock_nil]
    exact ⟨rfl, roundBlock_width hnb hne hb⟩

/-! ### Rows -/

section
variable {ks : List Kind} {πs : List (List Nat)}

theorem recode_flatten (h : List.Forall₂ CodedBy ks πs) {bs : List Vec}
    (hb : List.Forall₂ (fun k b => b.length = width k) ks bs) :
    recode ks πs bs.flatten = (List.zipWith recodeBlock πs bs).flatten ∧
      List.Forall₂ (fun k b => b.length = width k) ks (List.zipWith recodeBlock πs bs) := by
  constructor
  · unfold recode
    rw [if_pos (flatten_length_width hb), blocksOf_flatten hb]
  · induction h generalizing bs with
    | nil => cases hb; exact .nil
    | cons hk _ ih =>
      cases hb with
      | cons hb hbs => exact .cons (recodeBlock_length hk hb) (ih hbs)

theorem recode_length (h : List.Forall₂ CodedBy ks πs) (x : Vec) : (recode ks πs x).length = x.length := by
  by_cases hx : x.length = (ks.map width).sum
  · obtain ⟨h1, h2⟩ := blocksOf_spec ks x hx
    obtain ⟨h3, h4⟩ := recode_flatten h h1
    rw [h2] at h3
    rw [h3, flatten_length_width h4, hx]
  · unfold recode
    rw [if_neg hx]

theorem encode_rows (h : List.Forall₂ CodedBy ks πs) {x : Vec} (hx : List.Forall₂ Encodable ks x) :
    List.Forall₂ Encodable ks (renumberRow πs x) ∧
      List.zipWith encodeVal ks (renumberRow πs x) = List.zipWith recodeBlock πs (List.zipWith encodeVal ks x) ∧
      List.Forall₂ Coded ks (List.zipWith encodeVal ks x) := by
  induction h generalizing x with
  | nil => cases hx; exact ⟨.nil, rfl, .nil⟩
  | cons hk _ ih =>
    cases hx with
    | cons hv hx =>
      obtain ⟨h1, h2, h3⟩ := ih hx
      obtain ⟨g1, g2, g3⟩ := encodable_renumber hk hv
      exact ⟨.cons g1 h1, by simp [renumberRow, g2, h2], .cons g3 h3⟩

theorem decode_rows (h : List.Forall₂ CodedBy ks πs) (hnb : NoBandit ks) {bs : List Vec}
    (hb : List.Forall₂ Coded ks bs) :
    List.zipWith decBlock ks (List.zipWith recodeBlock πs bs) = renumberRow πs (List.zipWith decBlock ks bs) ∧
      List.Forall₂ Encodable ks (List.zipWith decBlock ks bs) := by
  induction h generalizing bs with
  | nil => cases hb; exact ⟨rfl, .nil⟩
  | @cons k π ks πs hk _ ih =>
    cases hb with
    | cons hb hbs =>
      obtain ⟨h1, h2⟩ := ih (fun k hk => hnb k (by simp [hk])) hbs
      obtain ⟨g1, g2⟩ := decBlock_recode hk (hnb k (by simp)) hb
      exact ⟨by simp [renumberRow, g1, h1], .cons g2 h2⟩

theorem round_rows (h : List.Forall₂ CodedBy ks πs) (hnb : NoBandit ks) (hne : ∀ k ∈ ks, NonEmptyDom k)
    {bs : List Vec} (hb : List.Forall₂ (fun k b => b.length = width k) ks bs) (hg : List.Forall₂ Greatest ks bs) :
    List.zipWith roundBlock ks (List.zipWith recodeBlock πs bs)
        = List.zipWith recodeBlock πs (List.zipWith roundBlock ks bs) ∧
      List.Forall₂ Coded ks (List.zipWith roundBlock ks bs) := by
  induction h generalizing bs with
  | nil => cases hb; exact ⟨rfl, .nil⟩
  | @cons k π ks πs hk _ ih =>
    cases hb with
    | cons hb hbs =>
      cases hg with
      | cons hg hgs =>
        obtain ⟨h1, h2⟩ := ih (fun k hk => hnb k (by simp [hk])) (fun k hk => hne k (by simp [hk])) hbs hgs
        obtain ⟨g1, g2⟩ := roundBlock_recode hk (hnb k (by simp)) (hne k (by simp)) hb hg
        exact ⟨by simp [g1, h1], .cons g2 h2⟩

theorem coded_widths {bs : List Vec} (h : List.Forall₂ Coded ks bs) :
    List.Forall₂ (fun k b => b.length = width k) ks bs := h.imp fun _ _ hb => coded_width hb

/-- The distance of two rows of categories: it is the same, or at least 1 before and after. -/
theorem rowSqDist_renumber (h : List.Forall₂ CodedBy ks πs) {x y : Vec} (hx : List.Forall₂ Encodable ks x)
    (hy : List.Forall₂ Encodable ks y) :
    rowSqDist (renumberRow πs x) (renumberRow πs y) = rowSqDist x y ∨
      1 ≤ rowSqDist x y ∧ 1 ≤ rowSqDist (renumberRow πs x) (renumberRow πs y) := by
  have nn : ∀ a b : Vec, 0 ≤ rowSqDist a b := by
    intro a b
    unfold rowSqDist
    generalize List.zipWith (· - ·) a b = l
    induction l with
    | nil => simp
    | cons d l ih =>
      simp only [List.map_cons, List.sum_cons]
      have := sq_nonneg d
      linarith
  have far : ∀ i j : Nat, i ≠ j → (1 : ℚ) ≤ ((i : ℚ) - j) ^ 2 := by
    intro i j hij
    have : (1 : ℤ) ≤ ((i : ℤ) - j) ^ 2 := by
      have h0 : (i : ℤ) - j ≠ 0 := by omega
      have := Int.one_le_abs h0
      nlinarith [sq_abs ((i : ℤ) - j), abs_nonneg ((i : ℤ) - j)]
    exact_mod_cast this
  induction h generalizing x y with
  | nil => cases hx; cases hy; left; rfl
  | @cons k π ks πs hk _ ih =>
    cases hx with
    | @cons _ v _ x hv hx =>
      cases hy with
      | @cons _ w _ y hw hy =>
        have cc : ∀ (a b : ℚ) (p q : Vec), rowSqDist (a :: p) (b :: q) = (a - b) ^ 2 + rowSqDist p q :=
          fun a b p q => by simp [rowSqDist]
        simp only [renumberRow, cc]
        have key : (renumber π v - renumber π w) ^ 2 = (v - w) ^ 2 ∨
            1 ≤ (v - w) ^ 2 ∧ 1 ≤ (renumber π v - renumber π w) ^ 2 := by
          cases k with
          | categorical l =>
            obtain ⟨i, hi, rfl⟩ := hv
            obtain ⟨j, hj, rfl⟩ := hw
            by_cases hij : i = j
            · subst hij; left; simp
            · right
              rw [renumber_nat (codedBy_lt hk.1 hi).1, renumber_nat (codedBy_lt hk.1 hj).1]
              refine ⟨far i j hij, far _ _ fun he => hij ?_⟩
              exact (List.idxOf_inj (codedBy_lt hk.1 hi).1).1 he
          | _ =>
            have h0 : π = [] := hk
            subst h0
            left
            rw [renumber_nil, renumber_nil]
        have n1 := nn x y
        have n2 := nn (renumberRow πs x) (renumberRow πs y)
        have n3 := sq_nonneg (v - w)
        have n4 := sq_nonneg (renumber π v - renumber π w)
        rcases key with key | ⟨k1, k2⟩
        · rcases ih hx hy with h1 | ⟨h1, h2⟩
          · left; rw [key, h1]
          · right; constructor <;> linarith
        · right; constructor <;> linarith

/-- Rows of a design. -/
theorem rowList_renumber (h : List.Forall₂ CodedBy ks πs) (hnb : NoBandit ks) (hne : ∀ k ∈ ks, NonEmptyDom k)
    {ch ch' : Nat → Nat} : ∀ (i : Nat) (des : Vec),
    (∀ (j : Nat) (k : Kind) (π : List Nat), ks[j]? = some k → πs[j]? = some π →
      drawn k (ch' (i + j)) = (drawn k (ch (i + j))).map (renumber π)) →
    rowList ch' i des ks = renumberRow πs (rowList ch i des ks) ∧ List.Forall₂ Encodable ks (rowList ch i des ks) := by
  have draw : ∀ {l : List ℚ} (hl : l ≠ []) (c : Nat), l[c % l.length]? = some (choiceOf l c) := by
    intro l hl c
    have := Nat.mod_lt c (List.length_pos_iff.2 hl)
    simp [choiceOf, List.getElem?_eq_getElem this, List.getD_eq_getElem?_getD]
  induction h with
  | nil => intro i des _; exact ⟨rfl, .nil⟩
  | @cons k π ks πs hk _ ih =>
    intro i des hd
    have ih' := fun des => ih (fun k hk => hnb k (by simp [hk])) (fun k hk => hne k (by simp [hk])) (i + 1) des
      fun j k π h1 h2 => by
        have := hd (j + 1) k π (by simpa using h1) (by simpa using h2)
        rwa [Nat.add_comm j 1, ← Nat.add_assoc] at this
    have h0 := hd 0 k π rfl rfl
    have hn := hne k (by simp)
    rw [Nat.add_zero] at h0
    cases k with
    | continuous lo hi =>
      have hp : π = [] := hk
      subst hp
      obtain ⟨h1, h2⟩ := ih' des.tail
      exact ⟨by simp [rowList, renumberRow, renumber_nil, h1], .cons trivial h2⟩
    | discrete l =>
      obtain ⟨h1, h2⟩ := ih' des
      simp only [drawn, draw hn, Option.map_some, Option.some.injEq] at h0
      exact ⟨by simp [rowList, renumberRow, h0, h1], .cons trivial h2⟩
    | categorical l =>
      obtain ⟨h1, h2⟩ := ih' des
      simp only [drawn, draw hn, Option.map_some, Option.some.injEq] at h0
      refine ⟨by simp [rowList, renumberRow, h0, h1], .cons ?_ h2⟩
      have := hk.2.mem_iff.1 (List.mem_of_getElem? (draw hn (ch i)))
      obtain ⟨j, hj, he⟩ := List.mem_map.1 this
      exact ⟨j, List.mem_range.1 hj, he.symm⟩
    | bandit a => exact absurd rfl (hnb _ (by simp) a)

end

/-- Constraints of corresponding rows. -/
theorem indicator_through {config config' : List Desc} {cs cs' : Option (List ConstrDict)} {sp sp' : Space}
    (hd : designSpace config cs = .ok sp) (hd' : designSpace config' cs' = .ok sp') {O : Vec → Vec} {n : Nat}
    (hc : SameAllThrough O n sp.constraints sp'.constraints) {X : Mat} (hX : ∀ r ∈ X, r.length = n) :
    sp'.indicatorConstraints (X.map O) = sp.indicatorConstraints X := by
  have h1 := OtherUnits.constraints_fixed hd
  have h2 := OtherUnits.constraints_fixed hd'
  unfold Space.indicatorConstraints
  generalize sp.constraints = c at hc h1 ⊢
  generalize sp'.constraints = c' at hc h2 ⊢
  cases hc with
  | none => simp [Function.comp_def]
  | @some l l' hcs =>
    simp only
    have h1' := h1 l rfl
    have h2' := h2 l' rfl
    rw [List.map_map]
    change applyConstrs l' (X.map O) (X.map fun _ => 1) = _
    generalize (X.map fun _ => (1 : ℚ)) = w
    clear h1 h2
    induction hcs generalizing w with
    | nil => rfl
    | @cons c c' cs cs' hcc _ ih =>
      have key : applyConstr c' (X.map O) w = applyConstr c X w := by
        unfold SameThrough at hcc
        rw [h1' c (by simp), h2' c' (by simp)] at hcc
        unfold applyConstr
        cases e1 : c.constraint with
        | none =>
          cases e2 : c'.constraint with
          | none => rfl
          | some g => rw [e1, e2] at hcc; exact hcc.elim
        | some f =>
          cases e2 : c'.constraint with
          | none => rw [e1, e2] at hcc; exact hcc.elim
          | some g =>
            rw [e1, e2] at hcc
            simp only at hcc ⊢
            have := OtherUnits.mapE_conv (f := f) (f' := g) (g := O) (k := id) X fun x hx => by
              rw [hcc x (hX x hx)]
              cases f x <;> rfl
            rw [this]
            cases mapE f X <;> simp
      simp only [applyConstrs, key]
      cases applyConstr c X w with
      | error e => rfl
      | ok w' => exact ih (fun c hc => h1' c (by simp [hc])) (fun c hc => h2' c (by simp [hc])) w'

namespace Spec.Renumbered

variable {πs : List (List Nat)} {sp sp' : Space}

theorem same (h : Renumbered πs sp sp') : sp' = { sp with constraints := sp'.constraints } := by
  obtain ⟨config, cs, cs', h1, h2⟩ := h.built
  have := designSpace_constraints h1 h2
  rw [this]

theorem expanded (h : Renumbered πs sp sp') : sp'.expanded = sp.expanded := by rw [h.same]
theorem kinds (h : Renumbered πs sp sp') : sp'.kinds = sp.kinds := by rw [h.same]; rfl
theorem modelDim (h : Renumbered πs sp sp') : sp'.modelDim = sp.modelDim := by rw [h.same]; rfl
theorem noBandit' (h : Renumbered πs sp sp') : sp'.hasBandit = false := by rw [h.same]; exact h.noBandit
theorem contBounds (h : Renumbered πs sp sp') : sp'.getContinuousBounds = sp.getContinuousBounds := by
  rw [h.same]; rfl
theorem contDims (h : Renumbered πs sp sp') : sp'.getContinuousDims = sp.getContinuousDims := by rw [h.same]; rfl
theorem domains' (h : Renumbered πs sp sp') : ∀ k ∈ sp'.kinds, NonEmptyDom k := by rw [h.kinds]; exact h.domains
theorem zipInputs (h : Renumbered πs sp sp') (X : Mat) : sp'.zipInputs X = sp.zipInputs X := by rw [h.same]; rfl
theorem unzipInputs (h : Renumbered πs sp sp') (X : Mat) : sp'.unzipInputs X = sp.unzipInputs X := by rw [h.same]; rfl
theorem roundOptimum (h : Renumbered πs sp sp') (X : Mat) : sp'.roundOptimum2d X = sp.roundOptimum2d X := by
  rw [h.same]; rfl

theorem noBanditKinds (h : Renumbered πs sp sp') : NoBandit sp.kinds := by
  obtain ⟨config, cs, cs', h1, h2⟩ := h.built
  exact space_noBandit h1 h.noBandit

theorem hasConstraints (h : Renumbered πs sp sp') : sp'.hasConstraints = sp.hasConstraints := by
  have hc := h.constraints
  unfold Space.hasConstraints
  generalize sp.constraints = c at hc ⊢
  generalize sp'.constraints = c' at hc ⊢
  cases hc <;> rfl

theorem indicator (h : Renumbered πs sp sp') {X : Mat} (hX : ∀ r ∈ X, r.length = sp.kinds.length) :
    sp'.indicatorConstraints (X.map (renumberRow πs)) = sp.indicatorConstraints X := by
  obtain ⟨config, cs, cs', hd, hd'⟩ := h.built
  exact indicator_through hd hd' h.constraints hX

/-! ### Encoding, decoding and rounding -/

theorem toModel (h : Renumbered πs sp sp') {x : Vec} (hx : List.Forall₂ Encodable sp.kinds x) :
    ∃ y : Vec, y.length = sp.modelDim ∧ List.Forall₂ Coded sp.kinds (blocksOf sp.kinds y) ∧
      sp.objectiveToModel x = .ok y ∧ sp.objectiveToModel (renumberRow πs x) = .ok (recode sp.kinds πs y) := by
  obtain ⟨h1, h2, h3⟩ := encode_rows h.codes hx
  have e1 := objectiveToModelFrom_ok (vs := sp.expanded) hx [] []
  have e2 := objectiveToModelFrom_ok (vs := sp.expanded) h1 [] []
  simp only [List.nil_append, List.append_nil, List.length_nil] at e1 e2
  refine ⟨encodeRow sp.kinds x, ?_, ?_, ?_, ?_⟩
  · rw [modelDim_eq]
    exact flatten_length_width (coded_widths h3)
  · unfold encodeRow
    rw [blocksOf_flatten (coded_widths h3)]
    exact h3
  · rw [sp.objectiveToModel_of h.noBandit]
    exact e1
  · rw [sp.objectiveToModel_of h.noBandit, e2]
    unfold encodeRow
    rw [(recode_flatten h.codes (coded_widths h3)).1]
    exact congrArg (fun l => Except.ok l.flatten) h2

theorem toObjective (h : Renumbered πs sp sp') {y : Vec} (hy : y.length = sp.modelDim)
    (hc : List.Forall₂ Coded sp.kinds (blocksOf sp.kinds y)) :
    ∃ x : Vec, List.Forall₂ Encodable sp.kinds x ∧ sp.modelToObjective y = .ok x ∧
      sp.modelToObjective (recode sp.kinds πs y) = .ok (renumberRow πs x) := by
  rw [modelDim_eq] at hy
  obtain ⟨b1, b2⟩ := blocksOf_spec sp.kinds y hy
  obtain ⟨r1, r2⟩ := recode_flatten h.codes b1
  rw [b2] at r1
  have e1 := modelToObjectiveFrom_blocks (vs := sp.expanded) h.noBanditKinds b1 [] []
  have e2 := modelToObjectiveFrom_blocks (vs := sp.expanded) h.noBanditKinds r2 [] []
  simp only [List.nil_append, List.append_nil, List.length_nil] at e1 e2
  obtain ⟨d1, d2⟩ := decode_rows h.codes h.noBanditKinds hc
  refine ⟨_, d2, ?_, ?_⟩
  · unfold Space.modelToObjective
    rw [b2] at e1
    exact e1
  · unfold Space.modelToObjective
    rw [r1, e2]
    exact congrArg Except.ok d1

theorem round (h : Renumbered πs sp sp') {y : Vec} (hy : y.length = sp.modelDim) (hg : OneGreatest sp.kinds y) :
    ∃ r : Vec, r.length = sp.modelDim ∧ List.Forall₂ Coded sp.kinds (blocksOf sp.kinds r) ∧
      sp.roundOptimum2d [y] = .ok [r] ∧
      sp.roundOptimum2d [recode sp.kinds πs y] = .ok [recode sp.kinds πs r] := by
  rw [modelDim_eq] at hy
  obtain ⟨b1, b2⟩ := blocksOf_spec sp.kinds y hy
  obtain ⟨r1, r2⟩ := recode_flatten h.codes b1
  rw [b2] at r1
  have e1 := roundPieces_blocks (vs := sp.expanded) h.noBanditKinds h.domains b1 [] []
  have e2 := roundPieces_blocks (vs := sp.expanded) h.noBanditKinds h.domains r2 [] []
  simp only [List.nil_append, List.append_nil, List.length_nil] at e1 e2
  obtain ⟨d1, d2⟩ := round_rows h.codes h.noBanditKinds h.domains b1 hg
  have hne : List.zipWith roundBlock sp.kinds (blocksOf sp.kinds y) ≠ [] := by
    intro h0
    rw [h0] at d2
    exact h.nonempty (List.length_eq_zero_iff.1 d2.length_eq)
  have hne' : List.zipWith roundBlock sp.kinds (List.zipWith recodeBlock πs (blocksOf sp.kinds y)) ≠ [] := by
    have hw := (recode_flatten h.codes (coded_widths d2)).2
    rw [← d1] at hw
    intro h0
    rw [h0] at hw
    exact h.nonempty (List.length_eq_zero_iff.1 hw.length_eq)
  refine ⟨(List.zipWith roundBlock sp.kinds (blocksOf sp.kinds y)).flatten, ?_, ?_, ?_, ?_⟩
  · rw [modelDim_eq]; exact flatten_length_width (coded_widths d2)
  · rw [blocksOf_flatten (coded_widths d2)]; exact d2
  · rw [b2] at e1
    simp only [Space.roundOptimum2d, Space.roundOptimum, e1]
    exact GPyOpt.concatPieces_flat hne
  · rw [← r1] at e2
    simp only [Space.roundOptimum2d, Space.roundOptimum, e2]
    rw [(recode_flatten h.codes (coded_widths d2)).1, ← d1]
    exact GPyOpt.concatPieces_flat hne'

/-- Rows of encoded values. -/
def Dom (sp : Space) (y : Vec) : Prop :=
  y.length = sp.modelDim ∧ List.Forall₂ Coded sp.kinds (blocksOf sp.kinds y)

theorem dom_greatest {y : Vec} (h : Dom sp y) : OneGreatest sp.kinds y :=
  h.2.imp fun _ _ hb => coded_greatest hb

theorem zip (h : Renumbered πs sp sp') {m : Mat} (hm : m ≠ []) (hl : ∀ r ∈ m, Dom sp r) :
    sp.zipInputs (m.map (recode sp.kinds πs)) = (sp.zipInputs m).map (List.map (renumberRow πs)) ∧
      ∀ X, sp.zipInputs m = .ok X → ∀ r ∈ X, List.Forall₂ Encodable sp.kinds r := by
  simp only [Space.zipInputs, h.noBandit, Bool.false_eq_true, if_false]
  have := OtherUnits.mapE_conv (f := sp.modelToObjective) (f' := sp.modelToObjective)
    (g := recode sp.kinds πs) (k := renumberRow πs) m fun x hx => by
      obtain ⟨z, -, h1, h2⟩ := h.toObjective (hl x hx).1 (hl x hx).2
      rw [h1, h2]
      rfl
  rw [this]
  cases hm' : mapE sp.modelToObjective m with
  | error e => exact ⟨rfl, fun X hX => by cases hX⟩
  | ok m' =>
    have hl' := mapE_length hm'
    cases m' with
    | nil => exact absurd (List.length_eq_zero_iff.1 hl'.symm) hm
    | cons a m' =>
      refine ⟨rfl, fun X hX r hr => ?_⟩
      cases hX
      obtain ⟨x, hx1, hx2⟩ := mapE_ok_mem hm' hr
      obtain ⟨z, h0, h1, -⟩ := h.toObjective (hl x hx1).1 (hl x hx1).2
      rw [h1] at hx2
      cases hx2
      exact h0

theorem unzip (h : Renumbered πs sp sp') {X : Mat} (hX : RowsIn (List.Forall₂ Encodable sp.kinds) X) :
    sp.unzipInputs (X.map (renumberRow πs)) = (sp.unzipInputs X).map (List.map (recode sp.kinds πs)) ∧
      ∀ m, sp.unzipInputs X = .ok m → ∀ r ∈ m, Dom sp r := by
  simp only [Space.unzipInputs, h.noBandit, Bool.false_eq_true, if_false]
  have := OtherUnits.mapE_conv (f := sp.objectiveToModel) (f' := sp.objectiveToModel)
    (g := renumberRow πs) (k := recode sp.kinds πs) X fun x hx => by
      obtain ⟨z, -, -, h1, h2⟩ := h.toModel (hX.2 x hx)
      rw [h1, h2]
      rfl
  rw [this]
  cases hm' : mapE sp.objectiveToModel X with
  | error e => exact ⟨rfl, fun X hX => by cases hX⟩
  | ok m' =>
    have hl' := mapE_length hm'
    cases m' with
    | nil => exact absurd (List.length_eq_zero_iff.1 hl'.symm) hX.1
    | cons a m' =>
      refine ⟨rfl, fun m hm r hr => ?_⟩
      cases hm
      obtain ⟨x, hx1, hx2⟩ := mapE_ok_mem hm' hr
      obtain ⟨z, h0, h3, h1, -⟩ := h.toModel (hX.2 x hx1)
      rw [h1] at hx2
      cases hx2
      exact ⟨h0, h3⟩

theorem sameStopped (h : Renumbered πs sp sp') {eps : ℚ} (he : eps < 1) :
    SameStoppedIn (List.Forall₂ Encodable sp.kinds) (renumberRow πs) eps eps := by
  intro X hX
  unfold lastTwoClose
  rw [← List.map_reverse]
  cases hr : X.reverse with
  | nil => rfl
  | cons x l =>
    cases l with
    | nil => rfl
    | cons y l =>
      have hx := hX.2 x (List.mem_reverse.1 (by rw [hr]; simp))
      have hy := hX.2 y (List.mem_reverse.1 (by rw [hr]; simp))
      simp only [List.map_cons]
      rcases rowSqDist_renumber h.codes hx hy with hd | ⟨h1, h2⟩
      · rw [hd]
      · have : ∀ d : ℚ, 1 ≤ d → ¬ (0 ≤ eps ∧ d ≤ eps ^ 2) := by
          rintro d hd ⟨h0, hle⟩
          nlinarith
        simp [this _ h1, this _ h2]

/-! ### Designs -/

theorem mapE_designRow (h : Renumbered πs sp sp') {d d' : Draw}
    (hch : ∀ (r i : Nat) (k : Kind) (π : List Nat), sp.kinds[i]? = some k → πs[i]? = some π →
      drawn k (d'.choice i r) = (drawn k (d.choice i r)).map (renumber π))
    {des : Nat → Vec} (hdes : ∀ r, (des r).length = sp.getContinuousBounds.length) (l : List Nat) :
    ∃ X : Mat, (∀ r ∈ X, List.Forall₂ Encodable sp.kinds r) ∧
      mapE (GPyOpt.designRow sp d des) l = .ok X ∧
      mapE (GPyOpt.designRow sp' d' des) l = .ok (X.map (renumberRow πs)) := by
  obtain ⟨config, cs, cs', hsp, hsp'⟩ := h.built
  induction l with
  | nil => exact ⟨[], by simp, rfl, rfl⟩
  | cons r l ih =>
    obtain ⟨X, h1, h3, h4⟩ := ih
    have e1 := designRow_list hsp h.noBandit h.domains d des r (hdes r)
    have e2 := designRow_list hsp' h.noBandit' h.domains' d' des r (by rw [h.contBounds]; exact hdes r)
    obtain ⟨r1, r2⟩ := rowList_renumber h.codes h.noBanditKinds h.domains (ch := fun i => d.choice i r)
      (ch' := fun i => d'.choice i r) 0 (des r) fun j k π g1 g2 => by
        rw [Nat.zero_add]; exact hch r j k π g1 g2
    rw [h.kinds, r1] at e2
    refine ⟨_ :: X, ?_, by simp only [mapE, e1, h3]; rfl, by simp [mapE, e2, h4]⟩
    intro x hx
    rcases List.mem_cons.1 hx with rfl | hx
    · exact r2
    · exact h1 x hx

theorem randomNoConstr (h : Renumbered πs sp sp') {o o' : DesignOracle} (ho : SameCategories πs sp.kinds o o') (t n : Nat) :
    ∃ X : Mat, (∀ r ∈ X, List.Forall₂ Encodable sp.kinds r) ∧
      GPyOpt.randomNoConstr sp (o.draws t) n = .ok X ∧
      GPyOpt.randomNoConstr sp' (o'.draws t) n = .ok (X.map (renumberRow πs)) := by
  have := h.mapE_designRow (d := o.draws t) (d' := o'.draws t) (fun r => ho.choice t r)
    (des := fun r => uniformRow (fun k => (o.draws t).unif k r) sp.getContinuousBounds)
    (fun r => by simp [uniformRow]) (List.range n)
  unfold GPyOpt.randomNoConstr
  rw [ho.unif, h.contBounds]
  exact this

theorem selectValid_map (O : Vec → Vec) (X : Mat) (w : List ℚ) :
    selectValid (X.map O) w = (selectValid X w).map O := by
  unfold selectValid
  rw [List.map_filterMap, List.zip_map_left, List.filterMap_map]
  congr 1
  funext p
  simp only [Function.comp, Prod.map_fst, Prod.map_snd, id]
  split_ifs <;> rfl

theorem constrLoop (h : Renumbered πs sp sp') {o o' : DesignOracle} (ho : SameCategories πs sp.kinds o o') (n : Nat) :
    ∀ (fuel t : Nat) (S : Mat), (∀ r ∈ S, List.Forall₂ Encodable sp.kinds r) →
      GPyOpt.constrLoop sp' n o'.draws fuel t (S.map (renumberRow πs))
        = (GPyOpt.constrLoop sp n o.draws fuel t S).map (List.map (renumberRow πs)) ∧
      ∀ Y, GPyOpt.constrLoop sp n o.draws fuel t S = .ok Y → ∀ r ∈ Y, List.Forall₂ Encodable sp.kinds r := by
  intro fuel
  induction fuel with
  | zero =>
    intro t S hS
    unfold GPyOpt.constrLoop
    rw [List.length_map]
    split_ifs
    · exact ⟨rfl, fun Y hY => by cases hY⟩
    · refine ⟨by simp, fun Y hY => ?_⟩
      cases hY
      exact fun r hr => hS r (List.mem_of_mem_take hr)
  | succ fuel ih =>
    intro t S hS
    unfold GPyOpt.constrLoop
    rw [List.length_map]
    split_ifs
    · obtain ⟨X, h1, h3, h4⟩ := h.randomNoConstr ho t n
      simp only [h3, h4, h.indicator fun r hr => (h1 r hr).length_eq.symm]
      cases sp.indicatorConstraints X with
      | error e => exact ⟨rfl, fun Y hY => by cases hY⟩
      | ok w =>
        simp only
        rw [selectValid_map, ← List.map_append]
        refine ih (t + 1) _ ?_
        intro r hr
        rcases List.mem_append.1 hr with hr | hr
        · exact hS r hr
        · unfold selectValid at hr
          obtain ⟨q, hq, hq2⟩ := List.mem_filterMap.1 hr
          split_ifs at hq2
          cases hq2
          exact h1 _ (List.of_mem_zip hq).1
    · refine ⟨by simp, fun Y hY => ?_⟩
      cases hY
      exact fun r hr => hS r (List.mem_of_mem_take hr)

theorem designs (h : Renumbered πs sp sp') {o o' : DesignOracle} (ho : SameCategories πs sp.kinds o o') (n : Nat)
    (t : String) :
    initialDesign t sp' o' n = (initialDesign t sp o n).map (List.map (renumberRow πs)) ∧
      ∀ X, initialDesign t sp o n = .ok X → ∀ r ∈ X, List.Forall₂ Encodable sp.kinds r := by
  have fin : ∀ {a a' : Py Mat}, (∃ X : Mat, (∀ r ∈ X, List.Forall₂ Encodable sp.kinds r) ∧ a = .ok X ∧
      a' = .ok (X.map (renumberRow πs))) → a' = a.map (List.map (renumberRow πs)) ∧
        ∀ X, a = .ok X → ∀ r ∈ X, List.Forall₂ Encodable sp.kinds r := by
    rintro _ _ ⟨X, h1, rfl, rfl⟩
    exact ⟨rfl, fun Y hY => by cases hY; exact h1⟩
  unfold initialDesign
  split_ifs
  · unfold randomDesign
    rw [h.hasConstraints]
    split_ifs
    · have := h.constrLoop ho n o.fuel 0 [] (by simp)
      rw [List.map_nil] at this
      rw [ho.fuel]
      exact this
    · exact fin (h.randomNoConstr ho 0 n)
  · unfold sobolDesign
    rw [h.hasConstraints, h.contBounds, ho.sobol]
    split_ifs
    · exact ⟨rfl, fun Y hY => by cases hY⟩
    · exact fin (h.mapE_designRow (fun r => ho.choice 0 r) (fun r => by simp) _)
  · unfold gridDesign
    rw [h.hasConstraints, h.contBounds, h.contDims]
    split_ifs
    · exact ⟨rfl, fun Y hY => by cases hY⟩
    · split
      · exact ⟨rfl, fun Y hY => by cases hY⟩
      · split
        · exact ⟨rfl, fun Y hY => by cases hY⟩
        · refine fin (h.mapE_designRow (fun r => ho.choice 0 r) (fun r => ?_) _)
          unfold multigridRow
          split <;> simp_all
  · unfold latinDesign
    rw [h.hasConstraints, h.contBounds, ho.lhs]
    split_ifs
    · exact ⟨rfl, fun Y hY => by cases hY⟩
    · exact fin (h.mapE_designRow (fun r => ho.choice 0 r) (fun r => by simp) _)
  · exact ⟨rfl, fun Y hY => by cases hY⟩

/-! ### Suggestions -/

/-- Both context managers exist. -/
theorem managers (h : Renumbered πs sp sp') : ∃ c c', GPyOpt.contextManager sp none = .ok c ∧
    GPyOpt.contextManager sp' none = .ok c' := by
  obtain ⟨config, cs, cs', hsp, hsp'⟩ := h.built
  obtain ⟨c, -, hc, -⟩ := C23_context_partition hsp h.noBandit
    (fun k hk => h.domains k (by rw [space_kinds_eq hsp]; exact hk)) none ⟨by simp, by simp⟩
  obtain ⟨c', -, hc', -⟩ := C23_context_partition hsp' h.noBandit'
    (fun k hk => h.domains' k (by rw [space_kinds_eq hsp']; exact hk)) none ⟨by simp, by simp⟩
  exact ⟨c, c', hc, hc'⟩

theorem modelDim_pos (h : Renumbered πs sp sp') : 0 < sp.modelDim := by
  obtain ⟨config, cs, cs', hsp, hsp'⟩ := h.built
  exact LeftOut.modelDim_pos' hsp h.noBandit h.domains h.nonempty

theorem samples (h : Renumbered πs sp sp') {c c' : Ctx} (hc : GPyOpt.contextManager sp none = .ok c)
    (hc' : GPyOpt.contextManager sp' none = .ok c') (t : String) (n : Nat) {o o' : DesignOracle}
    (ho : SameCategories πs sp.kinds o o') :
    anchorSamples sp' (some c') false t n o'
        = (anchorSamples sp (some c) false t n o).map (List.map (recode sp.kinds πs)) ∧
      ∀ X, anchorSamples sp (some c) false t n o = .ok X → ∀ r ∈ X, Dom sp r := by
  obtain ⟨config, cs, cs', hsp, hsp'⟩ := h.built
  obtain ⟨h1, h2⟩ := h.designs ho n t
  rw [anchorSamples_none hsp h.noBandit h.modelDim_pos hc,
    anchorSamples_none hsp' h.noBandit' (by rw [h.modelDim]; exact h.modelDim_pos) hc', h1]
  cases hX : initialDesign t sp o n with
  | error e => exact ⟨rfl, fun X hX => by cases hX⟩
  | ok X =>
    have hl := h2 X hX
    simp only [Except_map_ok, List.map_eq_nil_iff]
    by_cases h0 : X = []
    · rw [if_pos h0, if_pos h0]; exact ⟨rfl, fun X hX => by cases hX⟩
    · rw [if_neg h0, if_neg h0, h.unzipInputs]
      exact h.unzip ⟨h0, hl⟩

/-- With other numbers for the categories: the suggestions correspond. -/
theorem corr (h : Renumbered πs sp sp') {c c' : Ctx} (hc : GPyOpt.contextManager sp none = .ok c)
    (hc' : GPyOpt.contextManager sp' none = .ok c') :
    Corr sp c sp' c' (recode sp.kinds πs) (recode sp.kinds πs) (renumberRow πs) (SameCategories πs sp.kinds)
      (fun unique _ => unique = false) (OneGreatest sp.kinds) (Dom sp) := by
  obtain ⟨config, cs, cs', hsp, hsp'⟩ := h.built
  obtain ⟨e1, -, e3⟩ := expand_self hsp h.noBandit hc
  obtain ⟨-, -, f3⟩ := expand_self hsp' h.noBandit' hc'
  have hl : ∀ x : Vec, x.length = sp.modelDim → (recode sp.kinds πs x).length = sp'.modelDim := by
    intro x hx
    rw [recode_length h.codes, h.modelDim, hx]
  refine ⟨h.noBandit, ?_, ?_, fun _ hx => hx.1, ?_, ?_, ?_, ?_, ?_, ?_, ?_⟩
  · rintro unique t n o o' rfl ho
    exact (h.samples hc hc' t n ho).1
  · rintro unique t n o o' X rfl ho
    exact (h.samples hc hc' t n ho).2 X
  · intro x hx
    rw [(e3 x hx).2, (f3 _ (hl x hx)).2]
    rfl
  · intro x hx
    rw [e1] at hx
    rw [(e3 x hx).1, (f3 _ (hl x hx)).1]
    rfl
  · intro x hx hg
    obtain ⟨r, -, -, r1, r2⟩ := h.round hx hg
    rw [h.roundOptimum, r1, r2]
    rfl
  · intro x m hx hg hm
    obtain ⟨r, d1, d2, r1, -⟩ := h.round hx hg
    rw [r1] at hm
    cases hm
    intro r' hr'
    rw [List.mem_singleton.1 hr']
    exact ⟨d1, d2⟩
  · intro x m hx hg hm
    obtain ⟨r, d1, d2, r1, -⟩ := h.round hx hg
    rw [r1] at hm
    cases hm
    simpa using dom_greatest (sp := sp) ⟨d1, d2⟩
  · intro m hm hl
    rw [h.zipInputs]
    exact (h.zip hm hl).1
  · intro x y _ _ he
    exact renumberRow_inj h.codes he

end Spec.Renumbered

end GPyOpt
