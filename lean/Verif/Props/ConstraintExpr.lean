import Verif.Spec.ConstraintExpr
import Verif.Spec.Space
import Verif.Lemmas.Py
import Mathlib.Tactic.Linarith
import Mathlib.Tactic.Ring

/-!
# Property C134: constraints written as expressions
-/

namespace GPyOpt

open Spec

/-- The array `a` has the values `g i` of the locations: as `(n,)` if `v`, as `(n, 1)` otherwise, or is a number. -/
structure RowRep (v u : Bool) (n : Nat) (a : NArr) (g : Nat → ℚ) : Prop where
  hr : a.r = if u && !v then n else 1
  hc : a.c = if u && v then n else 1
  hpy : a.py = !u
  hf : ∀ i < n, a.f (if u && !v then i else 0) (if u && v then i else 0) = g i

theorem bdim_one_left (n : Nat) : bdim 1 n = .ok n := by
  unfold bdim
  by_cases h : 1 = n
  · subst h; simp
  · rw [if_neg h, if_pos rfl]

theorem bdim_one_right (n : Nat) : bdim n 1 = .ok n := by
  unfold bdim
  by_cases h : n = 1
  · subst h; simp
  · rw [if_neg h, if_neg h, if_pos rfl]

theorem bdim_self (n : Nat) : bdim n n = .ok n := by simp [bdim]

theorem RowRep.bin {v u₁ u₂ : Bool} {n : Nat} {a b : NArr} {g h : Nat → ℚ} (op : ℚ → ℚ → ℚ)
    (ha : RowRep v u₁ n a g) (hb : RowRep v u₂ n b h) :
    ∃ c, a.bin op b = .ok c ∧ RowRep v (u₁ || u₂) n c fun i => op (g i) (h i) := by
  have key : ∀ (k i : Nat), i < n → (if k = 1 then 0 else i) = i ∨ k ≠ n := by
    intro k i hi
    by_cases hk : k = 1
    · by_cases hn : k = n
      · left; rw [if_pos hk]; omega
      · exact .inr hn
    · left; rw [if_neg hk]
  obtain ⟨a1, a2, a3, a4⟩ := ha
  obtain ⟨b1, b2, b3, b4⟩ := hb
  have e : bdim a.r b.r = .ok (if (u₁ || u₂) && !v then n else 1) ∧
      bdim a.c b.c = .ok (if (u₁ || u₂) && v then n else 1) := by
    rw [a1, a2, b1, b2]
    cases u₁ <;> cases u₂ <;> cases v <;> simp [bdim_self, bdim_one_left, bdim_one_right]
  refine ⟨_, by unfold NArr.bin; rw [e.1, e.2]; rfl, rfl, rfl, ?_, ?_⟩
  · rw [a3, b3]; cases u₁ <;> cases u₂ <;> rfl
  · intro i hi
    have a4 := a4 i hi
    have b4 := b4 i hi
    have hn : (if n = 1 then 0 else i) = i := by
      by_cases h1 : n = 1
      · rw [if_pos h1]; omega
      · rw [if_neg h1]
    simp only [a1, a2, b1, b2]
    rw [← a4, ← b4]
    cases u₁ <;> cases u₂ <;> cases v <;> simp [hn]

theorem RowRep.un {v u : Bool} {n : Nat} {a : NArr} {g : Nat → ℚ} (op : ℚ → ℚ) (ha : RowRep v u n a g) :
    RowRep v u n (a.un op) fun i => op (g i) :=
  ⟨ha.hr, ha.hc, ha.hpy, fun i hi => by
    show op (a.f _ _) = _
    rw [ha.hf i hi]⟩

/-- Whether the expression mentions `x`. -/
def usesX : NExpr → Bool
  | .num _ => false
  | .sumAll e | .sumRows e | .neg e | .abs e | .pow e _ => usesX e
  | .add a b | .sub a b | .mul a b => usesX a || usesX b
  | _ => true

theorem usesX_iff (e : NExpr) : usesX e = true ↔ UsesX e := by
  induction e with
  | num q => simp [usesX, UsesX]
  | whole => simp [usesX, UsesX]
  | col j => simp [usesX, UsesX]
  | cols j => simp [usesX, UsesX]
  | elem i j => simp [usesX, UsesX]
  | sumAll e ih => simpa [usesX, UsesX] using ih
  | sumRows e ih => simpa [usesX, UsesX] using ih
  | neg e ih => simpa [usesX, UsesX] using ih
  | abs e ih => simpa [usesX, UsesX] using ih
  | pow e k ih => simpa [usesX, UsesX] using ih
  | add a b iha ihb => simp [usesX, UsesX, iha, ihb]
  | sub a b iha ihb => simp [usesX, UsesX, iha, ihb]
  | mul a b iha ihb => simp [usesX, UsesX, iha, ihb]

theorem npIndex_ok {n : Nat} {j : Int} (h1 : -(n : Int) ≤ j) (h2 : j < n) :
    npIndex n j = .ok (if 0 ≤ j then j.toNat else (j + n).toNat) := by
  unfold npIndex
  by_cases h : 0 ≤ j
  · rw [if_pos h, if_pos h2, if_pos h]
  · rw [if_neg h, if_pos (by omega), if_neg h]

/-- A sensible expression has the value that it means at every location. -/
theorem eval_rep {d : Nat} {x : Mat} (hx : ∀ row ∈ x, row.length = d) (v : Bool) :
    ∀ e : NExpr, (if v then Columns d e else Slices d e) →
      ∃ a, e.eval (matArr d x) = .ok a ∧ RowRep v (usesX e) x.length a fun i => meaning (x.getD i []) e := by
  intro e
  induction e with
  | num q => intro _; exact ⟨_, rfl, by simp [usesX], by simp [usesX], rfl, fun i _ => rfl⟩
  | whole =>
    cases v with
    | true => intro h; exact h.elim
    | false =>
      intro h
      have h : d = 1 := h
      subst h
      exact ⟨_, rfl, rfl, rfl, rfl, fun i _ => rfl⟩
  | col j =>
    cases v with
    | false => intro h; exact h.elim
    | true =>
      rintro ⟨h1, h2⟩
      refine ⟨NArr.mk 1 1 x.length false fun _ i => (matArr d x).f i (if 0 ≤ j then j.toNat else (j + d).toNat), ?_,
        rfl, rfl, rfl, fun i hi => ?_⟩
      · unfold NExpr.eval
        rw [show (matArr d x).c = d from rfl, npIndex_ok h1 h2]
        rfl
      · have : (x.getD i []).length = d := by
          rw [List.getD_eq_getElem?_getD, List.getElem?_eq_getElem hi, Option.getD_some]
          exact hx _ (List.getElem_mem hi)
        show (x.getD i []).getD _ 0 = (x.getD i []).getD _ 0
        rw [this]
  | cols j =>
    cases v with
    | true => intro h; exact h.elim
    | false =>
      intro h
      have h : j < d := h
      exact ⟨_, rfl, rfl, by show (if j < d then 1 else 0) = 1; rw [if_pos h], rfl, fun i _ => rfl⟩
  | elem i j => cases v <;> intro h <;> exact h.elim
  | sumAll e _ => cases v <;> intro h <;> exact h.elim
  | sumRows e _ =>
    cases v with
    | false => intro h; exact h.elim
    | true =>
      intro h
      cases e with
      | whole =>
        refine ⟨_, rfl, rfl, rfl, rfl, fun i hi => ?_⟩
        show ((List.range d).map fun j => (x.getD i []).getD j 0).sum = (x.getD i []).sum
        have : (x.getD i []).length = d := by
          rw [List.getD_eq_getElem?_getD, List.getElem?_eq_getElem hi, Option.getD_some]
          exact hx _ (List.getElem_mem hi)
        congr 1
        apply List.ext_getElem
        · rw [List.length_map, List.length_range, this]
        · intro k h1 h2
          rw [List.getElem_map, List.getElem_range, List.getD_eq_getElem?_getD, List.getElem?_eq_getElem h2,
            Option.getD_some]
      | _ => exact h.elim
  | neg e ih =>
    intro h
    obtain ⟨a, h1, h2⟩ := ih (by cases v <;> exact h)
    exact ⟨_, by unfold NExpr.eval; rw [h1]; rfl, h2.un _⟩
  | abs e ih =>
    intro h
    obtain ⟨a, h1, h2⟩ := ih (by cases v <;> exact h)
    exact ⟨_, by unfold NExpr.eval; rw [h1]; rfl, h2.un _⟩
  | pow e k ih =>
    intro h
    obtain ⟨a, h1, h2⟩ := ih (by cases v <;> exact h)
    exact ⟨_, by unfold NExpr.eval; rw [h1]; rfl, h2.un fun q => q ^ k⟩
  | add a b iha ihb =>
    intro h
    have h : (if v then Columns d a else Slices d a) ∧ (if v then Columns d b else Slices d b) := by cases v <;> exact h
    obtain ⟨a', h1, h2⟩ := iha h.1
    obtain ⟨b', h3, h4⟩ := ihb h.2
    obtain ⟨c, h5, h6⟩ := h2.bin (· + ·) h4
    exact ⟨c, by unfold NExpr.eval; rw [h1, h3]; exact h5, h6⟩
  | sub a b iha ihb =>
    intro h
    have h : (if v then Columns d a else Slices d a) ∧ (if v then Columns d b else Slices d b) := by cases v <;> exact h
    obtain ⟨a', h1, h2⟩ := iha h.1
    obtain ⟨b', h3, h4⟩ := ihb h.2
    obtain ⟨c, h5, h6⟩ := h2.bin (· - ·) h4
    exact ⟨c, by unfold NExpr.eval; rw [h1, h3]; exact h5, h6⟩
  | mul a b iha ihb =>
    intro h
    have h : (if v then Columns d a else Slices d a) ∧ (if v then Columns d b else Slices d b) := by cases v <;> exact h
    obtain ⟨a', h1, h2⟩ := iha h.1
    obtain ⟨b', h3, h4⟩ := ihb h.2
    obtain ⟨c, h5, h6⟩ := h2.bin (· * ·) h4
    exact ⟨c, by unfold NExpr.eval; rw [h1, h3]; exact h5, h6⟩

/-- Sensible constraints: columns or slices, but not both in one expression, and not a mere number. -/
def Sensible (d : Nat) (e : NExpr) : Prop := (Columns d e ∨ Slices d e) ∧ UsesX e

theorem Sensible.entries {d : Nat} {e : NExpr} (he : Sensible d e) {x : Mat} (hx : ∀ row ∈ x, row.length = d) :
    ∃ a, e.eval (matArr d x) = .ok a ∧ a.py = false ∧ a.r * a.c = x.length ∧
      a.entries = x.map fun row => meaning row e := by
  obtain ⟨h1, h2⟩ := he
  obtain ⟨v, hv⟩ : ∃ v : Bool, (if v then Columns d e else Slices d e) := by
    rcases h1 with h1 | h1
    · exact ⟨true, h1⟩
    · exact ⟨false, h1⟩
  obtain ⟨a, ha, hr, hc, hpy, hf⟩ := eval_rep hx v e hv
  rw [(usesX_iff e).2 h2] at hr hc hpy hf
  refine ⟨a, ha, hpy, ?_, ?_⟩
  · rw [hr, hc]; cases v <;> simp
  · have hmap : (x.map fun row => meaning row e) = (List.range x.length).map fun i => meaning (x.getD i []) e := by
      apply List.ext_getElem
      · simp
      · intro i a1 a2
        simp only [List.length_map] at a1
        simp [a1]
    rw [hmap]
    unfold NArr.entries
    rw [hr, hc]
    cases v with
    | true =>
      simp only [Bool.true_and, Bool.not_true, Bool.false_eq_true, if_false, if_true] at hf ⊢
      rw [show List.range 1 = [0] from rfl, List.flatMap_singleton]
      exact List.map_congr_left fun i hi => hf i (List.mem_range.1 hi)
    | false =>
      simp only [Bool.true_and, Bool.not_false, Bool.false_eq_true, if_false, if_true] at hf ⊢
      rw [show List.range 1 = [0] from rfl]
      simp only [List.map_cons, List.map_nil]
      rw [← List.map_eq_flatMap]
      exact List.map_congr_left fun i hi => hf i (List.mem_range.1 hi)

namespace Props

/-- **C134.** Constraints that are arithmetic expressions of columns (or of slices with one column): the indicator of any
number of locations is computed without an exception, and is 1 exactly for the locations at which every expression means a
number that is not positive. In particular the result for a location does not depend on the others. -/
theorem C134_expressions_partial {d : Nat} {es : List NExpr} (hes : ∀ e ∈ es, Sensible d e) {x : Mat}
    (hx : ∀ row ∈ x, row.length = d) :
    ∃ w, exprIndicator d es x = .ok w ∧ w.length = x.length ∧
      ∀ (i : Nat) (row : Vec), x[i]? = some row →
        (w[i]? = some 1 ∧ ∀ e ∈ es, meaning row e ≤ 0) ∨ (w[i]? = some 0 ∧ ∃ e ∈ es, 0 < meaning row e) := by
  have key : ∀ (es : List NExpr), (∀ e ∈ es, Sensible d e) → ∀ g : Vec → ℚ, 
      exprLoop d x es (x.map g) = .ok (x.map fun row => g row * if ∀ e ∈ es, meaning row e ≤ 0 then 1 else 0) := by
    intro es
    induction es with
    | nil => intro _ g; simp [exprLoop]
    | cons e es ih =>
      intro hes g
      obtain ⟨a, h1, h2, h3, h4⟩ := (hes e (by simp)).entries hx
      have h5 : indColumn x.length a = .ok (x.map fun row => if meaning row e ≤ 0 then 1 else 0) := by
        unfold indColumn
        rw [h2, if_neg (by simp), if_pos h3, h4, List.map_map]
        rfl
      unfold exprLoop
      rw [h1]
      dsimp only
      rw [h5]
      dsimp only
      rw [List.zipWith_map, List.zipWith_self, ih (fun e he => hes e (by simp [he]))]
      congr 2
      funext row
      by_cases ha : meaning row e ≤ 0
      · simp [ha]
      · simp [ha]
  have := key es hes fun _ => 1
  refine ⟨_, this, by simp, fun i row hi => ?_⟩
  rw [List.getElem?_map, hi]
  by_cases hall : ∀ e ∈ es, meaning row e ≤ 0
  · left
    exact ⟨by simp only [Option.map_some, if_pos hall, mul_one], hall⟩
  · right
    refine ⟨by simp only [Option.map_some, if_neg hall, mul_zero], ?_⟩
    push Not at hall
    exact hall

/-- **C134.** For these constraints the indicator is the one of the rest of the model, which evaluates every constraint
location by location. -/
theorem C134_rowwise_partial {d : Nat} {es : List NExpr} (hes : ∀ e ∈ es, Sensible d e) {x : Mat}
    (hx : ∀ row ∈ x, row.length = d) (sp : Space)
    (hsp : sp.constraints = some (es.map fun e => { constraint := some (e.constr d) })) :
    sp.indicatorConstraints x = exprIndicator d es x := by
  have hval : ∀ e, Sensible d e → ∀ row : Vec, row.length = d → e.constr d row = .ok (meaning row e) := by
    intro e he row hrow
    obtain ⟨a, h1, h2, h3, h4⟩ := he.entries (x := [row]) (by simpa using hrow)
    unfold NExpr.constr
    rw [h1]
    dsimp only
    have h3 : a.r * a.c = 1 := h3
    rw [h2, if_neg (by simp), if_pos h3]
    have hr : a.r = 1 := Nat.eq_one_of_mul_eq_one_right h3
    have hc : a.c = 1 := Nat.eq_one_of_mul_eq_one_left h3
    unfold NArr.entries at h4
    rw [hr, hc] at h4
    simp [show List.range 1 = [0] from rfl] at h4
    rw [h4]
  have key : ∀ (es : List NExpr), (∀ e ∈ es, Sensible d e) → ∀ w : List ℚ, 
      applyConstrs (es.map fun e => { constraint := some (e.constr d) }) x w = exprLoop d x es w := by
    intro es
    induction es with
    | nil => intro _ w; rfl
    | cons e es ih =>
      intro hes w
      obtain ⟨a, h1, h2, h3, h4⟩ := (hes e (by simp)).entries hx
      have h5 : indColumn x.length a = .ok (x.map fun row => if meaning row e ≤ 0 then 1 else 0) := by
        unfold indColumn
        rw [h2, if_neg (by simp), if_pos h3, h4, List.map_map]
        rfl
      have h6 : mapE (e.constr d) x = .ok (x.map fun row => meaning row e) :=
        mapE_map_ok fun row hrow => hval e (hes e (by simp)) row (hx row hrow)
      simp only [List.map_cons]
      unfold applyConstrs applyConstr exprLoop
      dsimp only
      rw [h1, h6]
      dsimp only
      rw [h5]
      dsimp only
      rw [ih (fun e he => hes e (by simp [he])), List.zipWith_map_right, List.zipWith_map_right]
  unfold Space.indicatorConstraints exprIndicator
  rw [hsp]
  exact key es hes _

/-- `x[:,0]**2 + x[:,1]**2 - 1`, the example of the documentation (`space.py:44`). -/
def exCircle : NExpr := .sub (.add (.pow (.col 0) 2) (.pow (.col 1) 2)) (.num 1)

example : Sensible 3 (.sub (.sumRows .whole) (.num 1)) ∧ Sensible 2 exCircle ∧ Sensible 1 (.sub .whole (.num (1 / 2))) := by
  simp [exCircle, Sensible, Columns, Slices, UsesX]

example : exprIndicator 2 [exCircle, .neg (.col (-1))] [[0, 1 / 2], [1, 1], [0, -1]] = .ok [1, 0, 0] := by decide +kernel

/-- C134 (negation). Sums over everything and mixtures of columns and slices are accepted for one location, with the value
that is meant, and raise for more than one: the same constraint works in the optimization of the acquisition and fails in
the initial design. A number alone always raises. -/
theorem C134_shapes_counterexample (a b : ℚ) (rest : Mat) (q : ℚ) (x : Mat) :
    exprIndicator 2 [.sub (.cols 0) (.col 1)] [[a, b]] = .ok [if a - b ≤ 0 then 1 else 0] ∧
    exprIndicator 2 [.sub (.cols 0) (.col 1)] ([a, b] :: [a, b] :: rest) = .error .valueError ∧
    exprIndicator 2 [.sub (.sumAll .whole) (.num 1)] [[a, b]] = .ok [if a + b - 1 ≤ 0 then 1 else 0] ∧
    exprIndicator 2 [.sub (.sumAll .whole) (.num 1)] ([a, b] :: [a, b] :: rest) = .error .valueError ∧
    exprIndicator 2 [.num q] x = .error .attributeError := by
  refine ⟨?_, ?_, ?_, ?_, rfl⟩
  · have h1 : exprIndicator 2 [.sub (.cols 0) (.col 1)] [[a, b]] = .ok [1 * if a - b ≤ 0 then 1 else 0] := rfl
    rw [h1, one_mul]
  · have h1 : (NExpr.sub (.cols 0) (.col 1)).eval (matArr 2 ([a, b] :: [a, b] :: rest)) =
        NArr.bin (· - ·) (NArr.mk 2 (rest.length + 2) 1 false fun i _ => (matArr 2 ([a, b] :: [a, b] :: rest)).f i 0)
          (NArr.mk 1 1 (rest.length + 2) false fun _ i => (matArr 2 ([a, b] :: [a, b] :: rest)).f i 1) := rfl
    have h2 : ∃ c, NArr.bin (· - ·) (NArr.mk 2 (rest.length + 2) 1 false
          fun i _ => (matArr 2 ([a, b] :: [a, b] :: rest)).f i 0)
          (NArr.mk 1 1 (rest.length + 2) false fun _ i => (matArr 2 ([a, b] :: [a, b] :: rest)).f i 1) = .ok c ∧
        c.py = false ∧ c.r * c.c = (rest.length + 2) * (rest.length + 2) := by
      refine ⟨_, by unfold NArr.bin; dsimp only; rw [bdim_one_right, bdim_one_left]; rfl, rfl, rfl⟩
    obtain ⟨c, h3, h4, h5⟩ := h2
    unfold exprIndicator exprLoop
    rw [h1, h3]
    dsimp only
    unfold indColumn
    rw [h4, if_neg (by simp), if_neg]
    rw [h5]
    simp only [List.length_cons]
    intro hc
    have : (rest.length + 2) * 2 ≤ (rest.length + 2) * (rest.length + 2) := Nat.mul_le_mul_left _ (by omega)
    omega
  · have h1 : exprIndicator 2 [.sub (.sumAll .whole) (.num 1)] [[a, b]] =
        .ok [1 * if a + (b + 0) - 1 ≤ 0 then 1 else 0] := rfl
    rw [h1, one_mul, add_zero]
  · have h1 : ∃ c, (NExpr.sub (.sumAll .whole) (.num 1)).eval (matArr 2 ([a, b] :: [a, b] :: rest)) = .ok c ∧
        c.py = false ∧ c.r * c.c = 1 := ⟨_, rfl, rfl, rfl⟩
    obtain ⟨c, h3, h4, h5⟩ := h1
    unfold exprIndicator exprLoop
    rw [h3]
    dsimp only
    unfold indColumn
    rw [h4, if_neg (by simp), if_neg]
    rw [h5]
    simp only [List.length_cons]
    omega

/-- C134 (negation). An expression with single entries of `x` is accepted for every number of locations, but its value at
a location depends on the other locations: with `x[:,0] - x[0,0]` the location `b` is feasible after `a` iff `b <= a`, and
always if it is alone. -/
theorem C134_entries_counterexample (a b : ℚ) :
    exprIndicator 1 [.sub (.col 0) (.elem 0 0)] [[a], [b]] = .ok [1, if b - a ≤ 0 then 1 else 0] ∧
    exprIndicator 1 [.sub (.col 0) (.elem 0 0)] [[b]] = .ok [1] := by
  have h1 : exprIndicator 1 [.sub (.col 0) (.elem 0 0)] [[a], [b]] =
      .ok [1 * (if a - a ≤ 0 then 1 else 0), 1 * if b - a ≤ 0 then 1 else 0] := rfl
  have h2 : exprIndicator 1 [.sub (.col 0) (.elem 0 0)] [[b]] = .ok [1 * (if b - b ≤ 0 then 1 else 0)] := rfl
  rw [h1, h2]
  simp

/-- Expressions without `x`. -/
inductive ConstantExpr : NExpr → Prop
  | num (q) : ConstantExpr (.num q)
  | neg {e} : ConstantExpr e → ConstantExpr (.neg e)
  | abs {e} : ConstantExpr e → ConstantExpr (.abs e)
  | pow {e} (k) : ConstantExpr e → ConstantExpr (.pow e k)
  | add {a b} : ConstantExpr a → ConstantExpr b → ConstantExpr (.add a b)
  | sub {a b} : ConstantExpr a → ConstantExpr b → ConstantExpr (.sub a b)
  | mul {a b} : ConstantExpr a → ConstantExpr b → ConstantExpr (.mul a b)

theorem ConstantExpr.eval {e : NExpr} (h : ConstantExpr e) (x : NArr) : ∃ a, e.eval x = .ok a ∧ a.py = true ∧ a.r = 1 ∧ a.c = 1 := by
  have hbin : ∀ (op : ℚ → ℚ → ℚ) (a b : NArr), a.py = true ∧ a.r = 1 ∧ a.c = 1 → b.py = true ∧ b.r = 1 ∧ b.c = 1 →
      ∃ c, a.bin op b = .ok c ∧ c.py = true ∧ c.r = 1 ∧ c.c = 1 := by
    rintro op a b ⟨a1, a2, a3⟩ ⟨b1, b2, b3⟩
    refine ⟨_, by simp only [NArr.bin, bdim, a2, a3, b2, b3, if_true]; rfl, ?_⟩
    simp [a1, b1]
  induction h with
  | num q => exact ⟨_, rfl, rfl, rfl, rfl⟩
  | neg _ ih | abs _ ih | pow _ _ ih =>
    obtain ⟨a, h1, h2⟩ := ih
    refine ⟨_, (by simp only [NExpr.eval, h1]; rfl), ?_⟩
    exact h2
  | add _ _ ih1 ih2 | sub _ _ ih1 ih2 | mul _ _ ih1 ih2 =>
    obtain ⟨a, h1, h2⟩ := ih1
    obtain ⟨b, g1, g2⟩ := ih2
    obtain ⟨c, k1, k2⟩ := hbin _ a b h2 g2
    exact ⟨c, by simp only [NExpr.eval, h1, g1]; exact k1, k2⟩

/-- C134 (negation, constants). A constraint that does not depend on the location, such as one that is always met, is an
`AttributeError` for every number of locations. -/
theorem C134_constant_counterexample {e : NExpr} (h : ConstantExpr e) (d : Nat) (es : List NExpr) (x : Mat) (row : Vec) :
    exprIndicator d (e :: es) x = .error .attributeError ∧ e.constr d row = .error .attributeError := by
  constructor
  · obtain ⟨a, h1, h2, -⟩ := h.eval (matArr d x)
    simp [exprIndicator, exprLoop, h1, indColumn, h2]
  · obtain ⟨a, h1, h2, -⟩ := h.eval (matArr d [row])
    simp [NExpr.constr, h1, h2]

/-- Expressions of columns, entries and sums, without the matrix `x` itself or its slices. -/
inductive NoMatrix : NExpr → Prop
  | num (q) : NoMatrix (.num q)
  | col (j) : NoMatrix (.col j)
  | elem (i j) : NoMatrix (.elem i j)
  | sumAll (e) : NoMatrix (.sumAll e)
  | sumRows (e) : NoMatrix (.sumRows e)
  | neg {e} : NoMatrix e → NoMatrix (.neg e)
  | abs {e} : NoMatrix e → NoMatrix (.abs e)
  | pow {e} (k) : NoMatrix e → NoMatrix (.pow e k)
  | add {a b} : NoMatrix a → NoMatrix b → NoMatrix (.add a b)
  | sub {a b} : NoMatrix a → NoMatrix b → NoMatrix (.sub a b)
  | mul {a b} : NoMatrix a → NoMatrix b → NoMatrix (.mul a b)

theorem NoMatrix.rank {e : NExpr} (h : NoMatrix e) {x a : NArr} (ha : e.eval x = .ok a) : a.rank ≤ 1 := by
  have hbin : ∀ (op : ℚ → ℚ → ℚ) (a b c : NArr), a.rank ≤ 1 → b.rank ≤ 1 → a.bin op b = .ok c → c.rank ≤ 1 := by
    intro op a b c h1 h2 hc
    unfold NArr.bin at hc
    cases hr : bdim a.r b.r with
    | error e => rw [hr] at hc; cases hc
    | ok r =>
      cases hcc : bdim a.c b.c with
      | error e => rw [hr, hcc] at hc; cases hc
      | ok k =>
        rw [hr, hcc] at hc
        cases hc
        exact max_le h1 h2
  induction h generalizing a with
  | num q => cases ha; exact Nat.zero_le 1
  | col j =>
    unfold NExpr.eval at ha
    cases hk : npIndex x.c j with
    | error e => rw [hk] at ha; cases ha
    | ok k => rw [hk] at ha; cases ha; exact le_refl 1
  | elem i j =>
    unfold NExpr.eval at ha
    cases hk : npIndex x.r i with
    | error e => rw [hk] at ha; cases ha
    | ok k =>
      cases hl : npIndex x.c j with
      | error e => rw [hk, hl] at ha; cases ha
      | ok l => rw [hk, hl] at ha; cases ha; exact Nat.zero_le 1
  | sumAll e =>
    unfold NExpr.eval at ha
    cases hk : e.eval x with
    | error e => rw [hk] at ha; cases ha
    | ok k => rw [hk] at ha; cases ha; exact Nat.zero_le 1
  | sumRows e =>
    unfold NExpr.eval at ha
    cases hk : e.eval x with
    | error e => rw [hk] at ha; cases ha
    | ok k =>
      rw [hk] at ha
      by_cases h2 : k.rank = 2
      · simp only [bind, Except.bind, if_pos h2] at ha; cases ha; exact le_refl 1
      · simp only [bind, Except.bind, if_neg h2] at ha; cases ha
  | @neg e _ ih | @abs e _ ih | @pow e _ _ ih =>
    unfold NExpr.eval at ha
    cases hk : e.eval x with
    | error e => rw [hk] at ha; cases ha
    | ok k =>
      have := ih hk
      rw [hk] at ha
      cases ha
      exact this
  | @add u v _ _ ih1 ih2 | @sub u v _ _ ih1 ih2 | @mul u v _ _ ih1 ih2 =>
    unfold NExpr.eval at ha
    cases hk : u.eval x with
    | error e => rw [hk] at ha; cases ha
    | ok k =>
      cases hl : v.eval x with
      | error e => rw [hk, hl] at ha; cases ha
      | ok l => rw [hk, hl] at ha; exact hbin _ k l a (ih1 hk) (ih2 hl) ha

/-- C134 (negation, sums). A sum over the variables of something that has one number per location already, such as
`np.sum(x[:,0]*x[:,1], axis=1)`, raises for every number of locations. -/
theorem C134_sum_counterexample {e : NExpr} (h : NoMatrix e) (d : Nat) (es : List NExpr) (x : Mat) (w : List ℚ) :
    exprIndicator d (.sumRows e :: es) x ≠ .ok w := by
  have hev : ∀ a, (NExpr.sumRows e).eval (matArr d x) ≠ .ok a := by
    intro a ha
    unfold NExpr.eval at ha
    cases hk : e.eval (matArr d x) with
    | error e => rw [hk] at ha; cases ha
    | ok k =>
      have hr := h.rank hk
      have h2 : ¬ k.rank = 2 := by omega
      rw [hk] at ha
      simp only [bind, Except.bind, if_neg h2] at ha
      cases ha
  unfold exprIndicator exprLoop
  cases hs : (NExpr.sumRows e).eval (matArr d x) with
  | error e => simp
  | ok a => exact absurd hs (hev a)

example : ConstantExpr (.sub (.num 1) (.num 2)) ∧ NoMatrix (.mul (.col 0) (.col 1)) :=
  ⟨.sub (.num 1) (.num 2), .mul (.col 0) (.col 1)⟩

end Props

end GPyOpt
