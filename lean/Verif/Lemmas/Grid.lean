import Verif.Lemmas.Design
import Verif.Lemmas.Iroot

/-! # Lemmas about the grid design -/

namespace GPyOpt

open Spec

/-- The `d` lowest digits of `r` in base `m`, least significant first. -/
def digits (m : Nat) : Nat → Nat → List Nat
  | 0, _ => []
  | d + 1, r => r % m :: digits m d (r / m)

theorem digits_length (m : Nat) : ∀ d r, (digits m d r).length = d := by
  intro d
  induction d with
  | zero => intro r; rfl
  | succ d ih => intro r; simp [digits, ih]

theorem digits_getElem? (m : Nat) : ∀ d r k, k < d → (digits m d r)[k]? = some ((r / m ^ k) % m) := by
  intro d
  induction d with
  | zero => intro r k h; omega
  | succ d ih =>
    intro r k h
    cases k with
    | zero => simp [digits]
    | succ k =>
      rw [digits, List.getElem?_cons_succ, ih _ _ (by omega), Nat.div_div_eq_div_mul, pow_succ,
        Nat.mul_comm]

theorem digits_exists (m : Nat) : ∀ (c : List Nat), (∀ i ∈ c, i < m) →
    ∃ r < m ^ c.length, digits m c.length r = c := by
  intro c
  induction c with
  | nil => intro _; exact ⟨0, by simp, rfl⟩
  | cons a c ih =>
    intro h
    obtain ⟨r, hr, hd⟩ := ih (fun i hi => h i (by simp [hi]))
    have ha := h a (by simp)
    have hm : 0 < m := by omega
    refine ⟨a + m * r, ?_, ?_⟩
    · rw [List.length_cons, pow_succ]
      nlinarith
    · rw [List.length_cons, digits, Nat.add_mul_mod_self_left, Nat.mod_eq_of_lt ha,
        Nat.add_mul_div_left _ _ hm, Nat.div_eq_of_lt ha, Nat.zero_add, hd]

theorem digits_inj (m : Nat) : ∀ d r r', r < m ^ d → r' < m ^ d → digits m d r = digits m d r' →
    r = r' := by
  intro d
  induction d with
  | zero => intro r r' h h'; simp at h h'; omega
  | succ d ih =>
    intro r r' h h' he
    simp only [digits, List.cons.injEq] at he
    rw [pow_succ] at h h'
    have h1 := ih (r / m) (r' / m) (Nat.div_lt_of_lt_mul (by rwa [Nat.mul_comm] at h))
      (Nat.div_lt_of_lt_mul (by rwa [Nat.mul_comm] at h')) he.2
    rw [← Nat.mod_add_div r m, ← Nat.mod_add_div r' m, he.1, h1]

theorem digits_lt (m : Nat) (hm : 0 < m) : ∀ d r, ∀ i ∈ digits m d r, i < m := by
  intro d
  induction d with
  | zero => intro r i hi; simp [digits] at hi
  | succ d ih =>
    intro r i hi
    rcases List.mem_cons.1 hi with rfl | hi
    · exact Nat.mod_lt _ hm
    · exact ih _ i hi

/-- Exchange of the first two entries. -/
def swap2 {α : Type} : List α → List α
  | a :: b :: l => b :: a :: l
  | l => l

theorem swap2_swap2 {α : Type} (l : List α) : swap2 (swap2 l) = l := by
  rcases l with _ | ⟨a, _ | ⟨b, l⟩⟩ <;> rfl

theorem swap2_length {α : Type} (l : List α) : (swap2 l).length = l.length := by
  rcases l with _ | ⟨a, _ | ⟨b, l⟩⟩ <;> rfl

theorem mem_swap2 {α : Type} (l : List α) (x : α) : x ∈ swap2 l ↔ x ∈ l := by
  rcases l with _ | ⟨a, _ | ⟨b, l⟩⟩ <;> simp [swap2, or_left_comm]

/-- The grid coordinates of row `r`. -/
def gridCode (m d r : Nat) : List Nat := swap2 (digits m d r)

theorem gridCode_getElem? (m d r k : Nat) (hd : 2 ≤ d) (hk : k < d) :
    (gridCode m d r)[k]? = some ((r / m ^ gridStride k) % m) := by
  have h0 := digits_getElem? m d r 0 (by omega)
  have h1 := digits_getElem? m d r 1 (by omega)
  have hkk := digits_getElem? m d r k hk
  have hl := digits_length m d r
  unfold gridCode
  rcases h : digits m d r with _ | ⟨a, _ | ⟨b, l⟩⟩
  · rw [h] at hl; simp at hl; omega
  · rw [h] at hl; simp at hl; omega
  · rw [h] at h0 h1 hkk
    rcases k with _ | _ | k
    · simpa [swap2, gridStride] using h1
    · simpa [swap2, gridStride] using h0
    · simpa [swap2, gridStride] using hkk

theorem multigridRow_eq (bounds : List (ℚ × ℚ)) (hb : bounds ≠ []) (m r : Nat) (hr : r < m ^ bounds.length) :
    multigridRow bounds m r
      = List.zipWith (fun (b : ℚ × ℚ) i => linspaceAt b.1 b.2 m i) bounds (gridCode m bounds.length r) := by
  rcases bounds with _ | ⟨b, _ | ⟨b', bs⟩⟩
  · exact absurd rfl hb
  · simp at hr
    simp [multigridRow, gridCode, digits, swap2, Nat.mod_eq_of_lt hr]
  · set L := b :: b' :: bs with hL
    have h2 : 2 ≤ L.length := by simp [hL]
    have : multigridRow L m r
        = L.mapIdx fun k b => linspaceAt b.1 b.2 m ((r / m ^ gridStride k) % m) := rfl
    rw [this]
    apply List.ext_getElem?
    intro i
    rw [List.getElem?_mapIdx, List.getElem?_zipWith]
    by_cases hi : i < L.length
    · rw [gridCode_getElem? m _ r i h2 hi, List.getElem?_eq_getElem hi]
      rfl
    · rw [List.getElem?_eq_none (by omega)]
      rfl

theorem linspaceAt_mem {lo hi : ℚ} (h : lo ≤ hi) {m i : Nat} (hi' : i < m) :
    lo ≤ linspaceAt lo hi m i ∧ linspaceAt lo hi m i ≤ hi := by
  unfold linspaceAt
  split_ifs with hm
  · exact ⟨le_rfl, h⟩
  · have hm1 : (0 : ℚ) < (m : ℚ) - 1 := by
      have : (2 : ℚ) ≤ m := by exact_mod_cast (by omega : 2 ≤ m)
      linarith
    have h1 : (0 : ℚ) ≤ (hi - lo) / ((m : ℚ) - 1) := div_nonneg (by linarith) hm1.le
    have h2 : (i : ℚ) ≤ (m : ℚ) - 1 := by
      have : ((i + 1 : Nat) : ℚ) ≤ m := by exact_mod_cast hi'
      push_cast at this
      linarith
    have h3 : (i : ℚ) * ((hi - lo) / ((m : ℚ) - 1)) ≤ ((m : ℚ) - 1) * ((hi - lo) / ((m : ℚ) - 1)) :=
      mul_le_mul_of_nonneg_right h2 h1
    rw [mul_div_cancel₀ _ hm1.ne'] at h3
    have h4 : (0 : ℚ) ≤ (i : ℚ) * ((hi - lo) / ((m : ℚ) - 1)) := mul_nonneg (by positivity) h1
    constructor <;> linarith

end GPyOpt
