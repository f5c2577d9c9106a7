import Verif.Model.Design
import Mathlib.Tactic.Ring
import Mathlib.Tactic.Linarith

/-! # Correctness of the integer root -/

namespace GPyOpt

/-- Tangent inequality: `u^(k+1) + (k+1) u^k (v-u) ≤ v^(k+1)` for `u, v ≥ 0`. -/
theorem tangent_le (u v : ℤ) (hu : 0 ≤ u) (hv : 0 ≤ v) : ∀ k : Nat,
    u ^ (k + 1) + (k + 1) * u ^ k * (v - u) ≤ v ^ (k + 1) := by
  intro k
  induction k with
  | zero => simp
  | succ k ih =>
    have h1 : v * (u ^ (k + 1) + (k + 1) * u ^ k * (v - u)) ≤ v * v ^ (k + 1) :=
      mul_le_mul_of_nonneg_left ih hv
    have h2 : 0 ≤ ((k : ℤ) + 1) * u ^ k * (v - u) ^ 2 := by positivity
    calc u ^ (k + 1 + 1) + (((k + 1 : Nat) : ℤ) + 1) * u ^ (k + 1) * (v - u)
        = v * (u ^ (k + 1) + (k + 1) * u ^ k * (v - u)) - ((k : ℤ) + 1) * u ^ k * (v - u) ^ 2 := by
          push_cast; ring
      _ ≤ v * v ^ (k + 1) := by linarith
      _ = v ^ (k + 1 + 1) := by ring

/-- A Newton step never falls below the integer root. -/
theorem newton_lower (k n u : Nat) (hu : 0 < u) :
    n < ((k * u + n / u ^ k) / (k + 1) + 1) ^ (k + 1) := by
  set q := n / u ^ k with hq
  set t := (k * u + q) / (k + 1) with ht
  have h1 : k * u + q < (k + 1) * (t + 1) := Nat.lt_mul_div_succ _ (by omega)
  have h2 : n < u ^ k * (q + 1) := Nat.lt_mul_div_succ _ (by positivity)
  have h3 := tangent_le u ((t : ℤ) + 1) (by positivity) (by positivity) k
  have h1' : (k : ℤ) * u + q + 1 ≤ (k + 1) * (t + 1) := by exact_mod_cast h1
  have h2' : (n : ℤ) < (u : ℤ) ^ k * (q + 1) := by exact_mod_cast h2
  have h4 : (u : ℤ) ^ k * (q + 1) ≤ (u : ℤ) ^ k * ((k + 1) * (t + 1) - k * u) :=
    mul_le_mul_of_nonneg_left (by linarith) (by positivity)
  have h5 : (n : ℤ) < ((t : ℤ) + 1) ^ (k + 1) := by
    have : (u : ℤ) ^ k * ((k + 1) * (t + 1) - k * u)
        = (u : ℤ) ^ (k + 1) + (k + 1) * (u : ℤ) ^ k * ((t + 1) - u) := by ring
    linarith
  exact_mod_cast h5

/-- The loop returns the integer root, if its last value `s` produced the current value `u` when
`u ≥ s`. -/
theorem irootLoop_spec (k n : Nat) (hn : 0 < n) : ∀ (s u : Nat), 0 < u →
    n < (s + 1) ^ (k + 1) → n < (u + 1) ^ (k + 1) → (s ≤ u → s ^ (k + 1) ≤ n) →
    ∃ m, irootLoop (k + 1) n u s = .ok m ∧ m ^ (k + 1) ≤ n ∧ n < (m + 1) ^ (k + 1) := by
  intro s
  induction s using Nat.strong_induction_on with
  | _ s ih =>
    intro u hu hs hu1 hexit
    rw [irootLoop]
    split_ifs with hlt h0 h00
    · exact h0.elim
    · omega
    · simp only [Nat.add_sub_cancel]
      have hlow := newton_lower k n u hu
      refine ih u hlt _ ?_ hu1 hlow ?_
      · by_contra hc
        have h0 : (k * u + n / u ^ k) / (k + 1) = 0 := Nat.eq_zero_of_not_pos hc
        rw [h0] at hlow
        simp at hlow
        omega
      · intro hle
        have h1 : u * (k + 1) ≤ k * u + n / u ^ k := (Nat.le_div_iff_mul_le (by omega)).1 hle
        have h2 : u ≤ n / u ^ k := by nlinarith
        have h3 : u * u ^ k ≤ n := (Nat.le_div_iff_mul_le (by positivity)).1 h2
        calc u ^ (k + 1) = u * u ^ k := by ring
          _ ≤ n := h3
    · exact ⟨s, rfl, hexit (by omega), hs⟩

theorem iroot_spec (k n : Nat) (hk : 0 < k) (hn : 0 < n) :
    ∃ m, iroot k n = .ok m ∧ m ^ k ≤ n ∧ n < (m + 1) ^ k := by
  obtain ⟨k, rfl⟩ : ∃ j, k = j + 1 := ⟨k - 1, by omega⟩
  have h : ∀ x, n ≤ x → n < (x + 1) ^ (k + 1) := by
    intro x hx
    calc n < x + 1 := by omega
      _ = (x + 1) ^ 1 := by ring
      _ ≤ (x + 1) ^ (k + 1) := Nat.pow_le_pow_right (by omega) (by omega)
  exact irootLoop_spec k n hn (n + 1) n hn (h _ (by omega)) (h _ le_rfl) (by omega)

end GPyOpt
