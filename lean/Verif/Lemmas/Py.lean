import Verif.Py
import Mathlib.Tactic.Linarith
import Mathlib.Tactic.Ring
import Mathlib.Tactic.Push

namespace GPyOpt

@[simp] theorem Except_map_ok {ε α β : Type} (f : α → β) (a : α) :
    Except.map f (.ok a : Except ε α) = .ok (f a) := rfl

@[simp] theorem Except_map_error {ε α β : Type} (f : α → β) (e : ε) :
    Except.map f (.error e : Except ε α) = .error e := rfl

theorem Except_map_eq_ok {ε α β : Type} {f : α → β} {x : Except ε α} {b : β} :
    Except.map f x = .ok b ↔ ∃ a, x = .ok a ∧ f a = b := by
  cases x <;> simp [Except.map]

@[simp] theorem mapE_nil {α β : Type} (f : α → Py β) : mapE f [] = .ok [] := rfl

theorem mapE_cons_ok {α β : Type} {f : α → Py β} {a : α} {l : List α} {r : List β} :
    mapE f (a :: l) = .ok r ↔ ∃ b bs, f a = .ok b ∧ mapE f l = .ok bs ∧ r = b :: bs := by
  simp only [mapE]
  cases h : f a with
  | error e => simp
  | ok b => cases h2 : mapE f l with
    | error e => simp
    | ok bs => simp [eq_comm]

theorem mapE_eq_ok {α β : Type} {f : α → Py β} {l : List α} {r : List β} :
    mapE f l = .ok r ↔ List.Forall₂ (fun a b => f a = .ok b) l r := by
  induction l generalizing r with
  | nil => simp [mapE, eq_comm]
  | cons a l ih =>
    rw [mapE_cons_ok, List.forall₂_cons_left_iff]
    simp only [ih]

theorem mapE_map_ok {α β : Type} {f : α → Py β} {g : α → β} {l : List α}
    (h : ∀ a ∈ l, f a = .ok (g a)) : mapE f l = .ok (l.map g) := by
  induction l with
  | nil => rfl
  | cons a l ih =>
    simp only [mapE, h a (by simp), ih (fun b hb => h b (by simp [hb])), List.map_cons]

theorem mapE_length {α β : Type} {f : α → Py β} {l : List α} {r : List β}
    (h : mapE f l = .ok r) : r.length = l.length :=
  (mapE_eq_ok.1 h).length_eq.symm

theorem mapE_ok_mem {α β : Type} {f : α → Py β} {l : List α} {r : List β}
    (h : mapE f l = .ok r) {b : β} (hb : b ∈ r) : ∃ a ∈ l, f a = .ok b := by
  rw [mapE_eq_ok] at h
  induction h with
  | nil => simp at hb
  | cons h1 _ ih =>
    rcases List.mem_cons.1 hb with rfl | hb
    · exact ⟨_, by simp, h1⟩
    · obtain ⟨a, ha, he⟩ := ih hb
      exact ⟨a, by simp [ha], he⟩

theorem mapE_ok_mem' {α β : Type} {f : α → Py β} {l : List α} {r : List β}
    (h : mapE f l = .ok r) {a : α} (ha : a ∈ l) : ∃ b ∈ r, f a = .ok b := by
  rw [mapE_eq_ok] at h
  induction h with
  | nil => simp at ha
  | cons h1 _ ih =>
    rcases List.mem_cons.1 ha with rfl | hb
    · exact ⟨_, by simp, h1⟩
    · obtain ⟨b, hb, he⟩ := ih hb
      exact ⟨b, by simp [hb], he⟩

theorem mapE_total {α β : Type} {f : α → Py β} {l : List α}
    (h : ∀ a ∈ l, ∃ b, f a = .ok b) : ∃ r, mapE f l = .ok r := by
  induction l with
  | nil => exact ⟨[], rfl⟩
  | cons a l ih =>
    obtain ⟨b, hb⟩ := h a (by simp)
    obtain ⟨bs, hbs⟩ := ih (fun c hc => h c (by simp [hc]))
    exact ⟨b :: bs, by simp [mapE, hb, hbs]⟩

theorem npGet_ok {α : Type} {x : List α} {i : Nat} {v : α} :
    npGet x i = .ok v ↔ x[i]? = some v := by
  unfold npGet; cases h : x[i]? <;> simp

theorem npGet_append_length {α : Type} (pre : List α) (v : α) (l : List α) :
    npGet (pre ++ v :: l) pre.length = .ok v := by
  simp [npGet_ok]

theorem slice_append_length {α : Type} (pre l : List α) (n : Nat) :
    slice (pre ++ l) pre.length n = l.take n := by simp [slice]

theorem slice_append_block {α : Type} (pre b l : List α) :
    slice (pre ++ (b ++ l)) pre.length b.length = b := by simp [slice]

/-- Specification of the scanning loop of `argmax`. -/
theorem argmaxFrom_spec {α : Type} [LinearOrder α] (ys : List α) : ∀ (l : List α) (pos best : Nat) (val : α),
    l.length = pos → l[best]? = some val → best < pos →
    (∀ j y, l[j]? = some y → y ≤ val ∧ (j < best → y < val)) →
    ∃ v, (l ++ ys)[argmaxFrom ys pos best val]? = some v ∧
      argmaxFrom ys pos best val < pos + ys.length ∧
      ∀ j y, (l ++ ys)[j]? = some y → y ≤ v ∧ (j < argmaxFrom ys pos best val → y < v) := by
  induction ys with
  | nil => intro l pos best val _ hb hlt hall; exact ⟨val, by simpa [argmaxFrom] using hb, by simpa [argmaxFrom] using hlt, by simpa [argmaxFrom] using hall⟩
  | cons y ys ih =>
    intro l pos best val hl hb hlt hall
    by_cases h : val < y
    · have := ih (l ++ [y]) (pos + 1) pos y (by simp [hl]) (by simp [← hl]) (by omega) (by
        intro j z hz
        rcases Nat.lt_or_ge j l.length with hj | hj
        · rw [List.getElem?_append_left hj] at hz
          exact ⟨((hall j z hz).1.trans_lt h).le, fun _ => (hall j z hz).1.trans_lt h⟩
        · rw [List.getElem?_append_right hj] at hz
          have : j - l.length = 0 := by
            by_contra hne
            rw [List.getElem?_eq_none (by simp; omega)] at hz
            cases hz
          rw [this] at hz
          simp at hz
          subst hz
          exact ⟨le_refl _, fun hj2 => by omega⟩)
      obtain ⟨v, h1, h2, h3⟩ := this
      refine ⟨v, ?_, ?_, ?_⟩
      · simpa [argmaxFrom, h] using h1
      · simp only [argmaxFrom, h, if_true, List.length_cons]; omega
      · simpa [argmaxFrom, h] using h3
    · have := ih (l ++ [y]) (pos + 1) best val (by simp [hl]) (by
        rw [List.getElem?_append_left (by omega)]; exact hb) (by omega) (by
        intro j z hz
        rcases Nat.lt_or_ge j l.length with hj | hj
        · rw [List.getElem?_append_left hj] at hz
          exact hall j z hz
        · rw [List.getElem?_append_right hj] at hz
          have : j - l.length = 0 := by
            by_contra hne
            rw [List.getElem?_eq_none (by simp; omega)] at hz
            cases hz
          rw [this] at hz
          simp at hz
          subst hz
          exact ⟨not_lt.1 h, fun hj2 => by omega⟩)
      obtain ⟨v, h1, h2, h3⟩ := this
      refine ⟨v, ?_, ?_, ?_⟩
      · simpa [argmaxFrom, h] using h1
      · simp only [argmaxFrom, h, if_false, List.length_cons]; omega
      · simpa [argmaxFrom, h] using h3

theorem argmax_spec {α : Type} [LinearOrder α] {l : List α} (h : l ≠ []) :
    ∃ i v, argmax l = .ok i ∧ i < l.length ∧ l[i]? = some v ∧
      ∀ j y, l[j]? = some y → y ≤ v ∧ (j < i → y < v) := by
  cases l with
  | nil => exact absurd rfl h
  | cons x xs =>
    obtain ⟨v, h1, h2, h3⟩ := argmaxFrom_spec xs [x] 1 0 x rfl rfl (by omega) (by
      intro j y hy
      cases j with
      | zero => simp at hy; subst hy; exact ⟨le_refl _, fun h => absurd h (by omega)⟩
      | succ j => simp at hy)
    exact ⟨_, v, rfl, by simpa [Nat.add_comm] using h2, by simpa using h1, by simpa using h3⟩

theorem argminFrom_eq {α : Type} [LinearOrder α] (ys : List α) : ∀ (pos best : Nat) (val : α),
    argminFrom ys pos best val
      = argmaxFrom (α := αᵒᵈ) (ys.map OrderDual.toDual) pos best (OrderDual.toDual val) := by
  induction ys with
  | nil => intros; rfl
  | cons y ys ih =>
    intro pos best val
    simp only [argminFrom, List.map_cons, argmaxFrom, ih, OrderDual.toDual_lt_toDual]

theorem argmin_spec {α : Type} [LinearOrder α] {l : List α} (h : l ≠ []) :
    ∃ i v, argmin l = .ok i ∧ i < l.length ∧ l[i]? = some v ∧
      ∀ j y, l[j]? = some y → v ≤ y ∧ (j < i → v < y) := by
  obtain ⟨i, v, h1, h2, h3, h4⟩ := argmax_spec (α := αᵒᵈ) (l := l.map OrderDual.toDual) (by simpa using h)
  refine ⟨i, OrderDual.ofDual v, ?_, by simpa using h2, ?_, ?_⟩
  · cases l with
    | nil => exact absurd rfl h
    | cons x xs =>
      simp only [argmax, argmin, List.map_cons, argminFrom_eq] at h1 ⊢
      exact h1
  · rw [List.getElem?_map] at h3
    cases hl : l[i]? with
    | none => simp [hl] at h3
    | some w => simp [hl] at h3; subst h3; rfl
  · intro j y hy
    have := h4 j (OrderDual.toDual y) (by simp [hy])
    exact this

end GPyOpt
