import Mathlib.Data.Fintype.BigOperators
import Mathlib.Data.Fintype.Pi
import Mathlib.Data.List.OfFn
import Mathlib.Logic.Equiv.Fin.Basic
import Mathlib.Tactic.Ring

/-!
# Rejection sampling: all accepted sequences are equally frequent
-/

namespace GPyOpt

/-- The number of sequences of length `L` of which the first `m` accepted entries are given, with `p` accepted and `q`
refused values. -/
def acceptCount (p q : Nat) : Nat → Nat → Nat
  | L, 0 => (p + q) ^ L
  | 0, _ + 1 => 0
  | L + 1, m + 1 => q * acceptCount p q L (m + 1) + acceptCount p q L m

theorem acceptCount_pos (p q : Nat) (hpq : 0 < p + q) : ∀ L m, m ≤ L → 0 < acceptCount p q L m
  | L, 0, _ => by unfold acceptCount; exact Nat.pow_pos hpq
  | 0, m + 1, h => absurd h (by omega)
  | L + 1, m + 1, h => by
    unfold acceptCount
    have := acceptCount_pos p q hpq L m (by omega)
    omega

theorem card_prefix_filter {Ω : Type} [Fintype Ω] [DecidableEq Ω] (F : Ω → Prop) [DecidablePred F] :
    ∀ (L : Nat) (Y : List Ω), (∀ y ∈ Y, F y) →
      (Finset.univ.filter fun w : Fin L → Ω => Y <+: (List.ofFn w).filter F).card =
        acceptCount (Finset.univ.filter F).card (Finset.univ.filter fun x => ¬ F x).card L Y.length
  | L, [], _ => by
    have hpq : (Finset.univ.filter F).card + (Finset.univ.filter fun x => ¬ F x).card = Fintype.card Ω := by
      rw [Finset.card_filter_add_card_filter_not, Finset.card_univ]
    simp only [List.nil_prefix, List.length_nil]
    unfold acceptCount
    rw [hpq]
    simp
  | 0, y :: Y, _ => by
    simp [acceptCount]
  | L + 1, y :: Y, hY => by
    have ih1 := card_prefix_filter F L (y :: Y) hY
    have ih2 := card_prefix_filter F L Y fun z hz => hY z (List.mem_cons_of_mem _ hz)
    have hy := hY y List.mem_cons_self
    have hsplit : (Finset.univ.filter fun w : Fin (L + 1) → Ω => (y :: Y) <+: (List.ofFn w).filter F).card =
        ∑ x : Ω, (Finset.univ.filter fun w : Fin L → Ω => (y :: Y) <+: (x :: List.ofFn w).filter F).card := by
      rw [← Finset.card_sigma]
      refine Finset.card_bij' (fun w _ => ⟨w 0, Fin.tail w⟩) (fun s _ => Fin.cons s.1 s.2) ?_ ?_ ?_ ?_
      · intro w hw
        simp only [Finset.mem_filter, Finset.mem_univ, true_and, Finset.mem_sigma] at hw ⊢
        rw [List.ofFn_succ] at hw
        exact hw
      · rintro ⟨x, w⟩ hw
        simp only [Finset.mem_filter, Finset.mem_univ, true_and, Finset.mem_sigma] at hw ⊢
        rw [List.ofFn_succ]
        simpa using hw
      · intro w _
        simp
      · rintro ⟨x, w⟩ _
        simp
    rw [hsplit, ← Finset.sum_filter_add_sum_filter_not Finset.univ F]
    have hA : ∑ x ∈ Finset.univ.filter F,
        (Finset.univ.filter fun w : Fin L → Ω => (y :: Y) <+: (x :: List.ofFn w).filter F).card =
        acceptCount (Finset.univ.filter F).card (Finset.univ.filter fun x => ¬ F x).card L Y.length := by
      rw [Finset.sum_eq_single_of_mem y (by simp [hy])]
      · rw [← ih2]
        congr 1
        ext w
        simp [hy, List.cons_prefix_cons]
      · intro x hx hne
        rw [Finset.mem_filter] at hx
        rw [Finset.card_eq_zero, Finset.filter_eq_empty_iff]
        intro w _ hc
        simp only [List.filter_cons, hx.2, decide_true, if_true, List.cons_prefix_cons] at hc
        exact hne hc.1.symm
    have hB : ∑ x ∈ Finset.univ.filter fun x => ¬ F x,
        (Finset.univ.filter fun w : Fin L → Ω => (y :: Y) <+: (x :: List.ofFn w).filter F).card =
        (Finset.univ.filter fun x => ¬ F x).card *
          acceptCount (Finset.univ.filter F).card (Finset.univ.filter fun x => ¬ F x).card L (Y.length + 1) := by
      rw [Finset.sum_const_nat]
      intro x hx
      rw [Finset.mem_filter] at hx
      rw [List.length_cons] at ih1
      rw [← ih1]
      congr 1
      ext w
      simp [hx.2]
    rw [hA, hB, List.length_cons]
    conv_rhs => unfold acceptCount
    ring

theorem flatten_rounds {Ω : Type} {N n : Nat} (w : Fin N → Fin n → Ω) :
    (List.ofFn fun i => List.ofFn (w i)).flatten =
      List.ofFn fun k : Fin (N * n) => w (finProdFinEquiv.symm k).1 (finProdFinEquiv.symm k).2 := by
  rw [List.ofFn_mul]
  congr 1
  congr 1
  funext i
  congr 1
  funext j
  have : finProdFinEquiv.symm ⟨(i : Nat) * n + j, by
      calc (i : Nat) * n + j < i * n + n := by have := j.2; omega
        _ = (i + 1) * n := by ring
        _ ≤ N * n := Nat.mul_le_mul_right _ i.2⟩ = (i, j) := by
    rw [Equiv.symm_apply_eq]
    apply Fin.ext
    simp [finProdFinEquiv]
    ring
  rw [this]

/-- The same for rounds of `n` values each. -/
theorem card_prefix_rounds {Ω : Type} [Fintype Ω] [DecidableEq Ω] (F : Ω → Prop) [DecidablePred F] (N n : Nat)
    (Y : List Ω) (hY : ∀ y ∈ Y, F y) :
    (Finset.univ.filter fun w : Fin N → Fin n → Ω =>
        Y <+: (List.ofFn fun i => List.ofFn (w i)).flatten.filter F).card =
      acceptCount (Finset.univ.filter F).card (Finset.univ.filter fun x => ¬ F x).card (N * n) Y.length := by
  rw [← card_prefix_filter F (N * n) Y hY]
  simp only [flatten_rounds]
  refine Finset.card_bij' (fun w _ => fun k : Fin (N * n) => w (finProdFinEquiv.symm k).1 (finProdFinEquiv.symm k).2)
    (fun v _ => fun i j => v (finProdFinEquiv (i, j))) ?_ ?_ ?_ ?_
  · intro w hw
    simpa only [Finset.mem_filter, Finset.mem_univ, true_and] using hw
  · intro v hv
    simpa only [Finset.mem_filter, Finset.mem_univ, true_and, Prod.mk.eta, Equiv.apply_symm_apply] using hv
  · intro w _
    funext i j
    simp only [Equiv.symm_apply_apply]
  · intro v _
    funext k
    simp only [Prod.mk.eta, Equiv.apply_symm_apply]

end GPyOpt
