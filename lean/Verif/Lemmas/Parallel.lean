import Verif.Model.Parallel
import Verif.Lemmas.BO
import Mathlib.Algebra.BigOperators.Intervals
import Mathlib.Algebra.Order.BigOperators.Group.Finset

/-! # Invariants of the parallel evaluation -/

namespace GPyOpt

theorem filterMap_range_getElem? {α : Type} (g : Nat → Option α)
    (hg : ∀ k, g k = none → g (k + 1) = none) (L k : Nat) :
    ((List.range L).filterMap g)[k]? = if k < L then g k else none := by
  have hmono : ∀ k d, g k = none → g (k + d) = none := by
    intro k d hk
    induction d with
    | zero => exact hk
    | succ d ih => exact hg _ ih
  have hsome : ∀ L a, g L = some a → ((List.range L).filterMap g).length = L := by
    intro L a hL
    induction L generalizing a with
    | zero => simp
    | succ L ih =>
      cases hL' : g L with
      | none => rw [hg L hL'] at hL; cases hL
      | some b =>
        rw [List.range_succ, List.filterMap_append, List.length_append, ih b hL']
        simp [hL']
  induction L generalizing k with
  | zero => simp
  | succ L ih =>
    rw [List.range_succ, List.filterMap_append]
    cases hL : g L with
    | none =>
      have : List.filterMap g [L] = [] := by simp [hL]
      rw [this, List.append_nil, ih]
      by_cases hk : k < L
      · simp [hk, Nat.lt_succ_of_lt hk]
      · by_cases hk' : k = L
        · subst hk'; simp [hL]
        · simp [hk, show ¬ k < L + 1 by omega]
    | some a =>
      have : List.filterMap g [L] = [a] := by simp [hL]
      rw [this]
      have hlen := hsome L a hL
      by_cases hk : k < L
      · rw [List.getElem?_append_left (by omega), ih]
        simp [hk, Nat.lt_succ_of_lt hk]
      · rw [List.getElem?_append_right (by omega), hlen]
        by_cases hk' : k = L
        · subst hk'; simp [hL]
        · rw [if_neg (by omega), List.getElem?_eq_none (by simp; omega)]

theorem strided_getElem? {α : Type} (x : List α) (i n k : Nat) (hn : 1 ≤ n) :
    (strided x i n)[k]? = x[i + k * n]? := by
  unfold strided
  rw [filterMap_range_getElem?]
  · split_ifs with h
    · rfl
    · symm
      rw [List.getElem?_eq_none]
      nlinarith
  · intro k hk
    rw [List.getElem?_eq_none_iff] at hk ⊢
    nlinarith

theorem strided_length_eq {α β : Type} {x : List α} {y : List β} (h : x.length = y.length) (i n : Nat)
    (hn : 1 ≤ n) : (strided x i n).length = (strided y i n).length := by
  have key : ∀ {α β : Type} {x : List α} {y : List β}, x.length = y.length →
      (strided x i n).length ≤ (strided y i n).length := by
    intro α β x y h
    by_contra hlt
    push Not at hlt
    have h1 := strided_getElem? y i n (strided y i n).length hn
    have h2 := strided_getElem? x i n (strided y i n).length hn
    rw [List.getElem?_eq_none (le_refl _)] at h1
    rw [List.getElem?_eq_getElem hlt] at h2
    have h3 := (List.getElem?_eq_none_iff.1 h1.symm)
    have h4 := (List.getElem?_eq_some_iff.1 h2.symm).1
    omega
  exact le_antisymm (key h) (key h.symm)

variable {c : ParCfg}

/-- `o` are outputs of the first rows of worker `i`. -/
def Outs (c : ParCfg) (i : Nat) (o : Vec) : Prop :=
  ∀ (k : Nat) (y : ℚ), o[k]? = some y → ∃ row, (c.rows i)[k]? = some row ∧ c.f row = .ok y

/-- `acc` has the right output at row `j`. -/
def RightAt (c : ParCfg) (acc : Vec) (j : Nat) : Prop :=
  ∃ row y, c.x[j]? = some row ∧ acc[j]? = some y ∧ c.f row = .ok y

/-- Complete message of worker `i`. -/
def Message (c : ParCfg) (i : Nat) (v : Vec) : Prop :=
  v.length = (c.rows i).length ∧ Outs c i v

/-- What holds in each phase of the parent. -/
def PhaseInv (c : ParCfg) (s : ParState) : Prop :=
  match s.parent with
  | .starting i => i ≤ c.n ∧ (∀ j, i ≤ j → j < c.n → s.worker j = .idle) ∧
      (∀ j < i, s.worker j ≠ .idle) ∧ (∀ j < c.n, s.worker j = .exited → s.pipe j ≠ none) ∧
      (i ≠ 0 → c.canStart = true)
  | .joining i => i ≤ c.n ∧ (∀ j < c.n, s.worker j ≠ .idle) ∧
      (∀ j < i, s.worker j = .exited ∨ s.worker j = .died) ∧
      (∀ j < c.n, s.worker j = .exited → s.pipe j ≠ none)
  | .receiving i acc => i ≤ c.n ∧ (∀ j < c.n, s.worker j = .exited ∨ s.worker j = .died) ∧
      (∀ j, i ≤ j → j < c.n → s.worker j = .exited → s.pipe j ≠ none) ∧ acc.length = c.x.length ∧
      (∀ j < c.x.length, j % c.n < i → RightAt c acc j) ∧ (∀ j < i, s.worker j = .exited)
  | .done acc => acc.length = c.x.length ∧ (∀ j < c.x.length, RightAt c acc j) ∧
      (∀ j < c.n, s.worker j = .exited)
  | .failed => c.canStart = false

structure ParInv (c : ParCfg) (s : ParState) : Prop where
  out : ∀ i < c.n, ∀ o, s.worker i = .running o → Outs c i o
  msg : ∀ i < c.n, ∀ v, s.pipe i = some v → Message c i v ∧ s.worker i = .exited
  exited : ∀ i < c.n, s.worker i = .exited → ∃ v, Message c i v ∧ c.size v ≤ c.cap
  died : ∀ i < c.n, s.worker i = .died → ∃ row ∈ c.x, ∃ e, c.f row = .error e
  phase : PhaseInv c s

theorem setAt_same {α : Type} (h : Nat → α) (i : Nat) (a : α) : setAt h i a i = a := by simp [setAt]

theorem setAt_ne {α : Type} (h : Nat → α) {i j : Nat} (a : α) (hj : j ≠ i) : setAt h i a j = h j := by
  simp [setAt, hj]

theorem rows_mem (hn : 1 ≤ c.n) {i k : Nat} {row : Vec} (h : (c.rows i)[k]? = some row) : row ∈ c.x := by
  unfold ParCfg.rows at h
  rw [strided_getElem? _ _ _ _ hn] at h
  exact List.mem_of_getElem? h

theorem Outs.append {i : Nat} {o : Vec} {row : Vec} {y : ℚ} (h : Outs c i o)
    (hr : (c.rows i)[o.length]? = some row) (hy : c.f row = .ok y) : Outs c i (o ++ [y]) := by
  intro k z hk
  rcases lt_trichotomy k o.length with hl | hl | hl
  · rw [List.getElem?_append_left hl] at hk; exact h k z hk
  · subst hl
    simp at hk
    exact ⟨row, hr, hk ▸ hy⟩
  · rw [List.getElem?_eq_none (by simp; omega)] at hk; cases hk

theorem assign_right (hn : 1 ≤ c.n) {i : Nat} {acc acc' v : Vec}
    (hlen : acc.length = c.x.length) (hm : Message c i v)
    (hold : ∀ j < c.x.length, j % c.n < i → RightAt c acc j)
    (h : assignStrided acc i c.n v = .ok acc') :
    acc'.length = c.x.length ∧ ∀ j < c.x.length, j % c.n < i + 1 → RightAt c acc' j := by
  unfold assignStrided at h
  split_ifs at h with hv
  simp only [Except.ok.injEq] at h
  subst h
  refine ⟨by simp [hlen], ?_⟩
  intro j hj hji
  have hget : ((List.range acc.length).map fun j =>
      if j % c.n = i then v.getD (j / c.n) 0 else acc.getD j 0)[j]?
      = some (if j % c.n = i then v.getD (j / c.n) 0 else acc.getD j 0) := by
    rw [List.getElem?_map, List.getElem?_range (by omega)]; rfl
  by_cases hj' : j % c.n = i
  · have hdiv : i + j / c.n * c.n = j := by
      have := Nat.mod_add_div j c.n
      rw [hj', Nat.mul_comm] at this
      exact this
    have hrow : (c.rows i)[j / c.n]? = c.x[j]? := by
      unfold ParCfg.rows
      rw [strided_getElem? _ _ _ _ hn, hdiv]
    have hlt : j / c.n < v.length := by
      rw [hm.1]
      have : (c.rows i)[j / c.n]? ≠ none := by
        rw [hrow]; simp [hj]
      by_contra hge
      exact this (List.getElem?_eq_none (by omega))
    have hvk : v[j / c.n]? = some v[j / c.n] := List.getElem?_eq_getElem hlt
    obtain ⟨row, h1, h2⟩ := hm.2 _ _ hvk
    refine ⟨row, v[j / c.n], by rw [← hrow]; exact h1, ?_, h2⟩
    rw [hget, if_pos hj', List.getD_eq_getElem?_getD, hvk]; rfl
  · obtain ⟨row, y, h1, h2, h3⟩ := hold j hj (by omega)
    refine ⟨row, y, h1, ?_, h3⟩
    rw [hget, if_neg hj', List.getD_eq_getElem?_getD, h2]; rfl

theorem assign_ok (hn : 1 ≤ c.n) {i : Nat} {acc v : Vec} (hlen : acc.length = c.x.length)
    (hm : Message c i v) : ∃ acc', assignStrided acc i c.n v = .ok acc' := by
  unfold assignStrided
  rw [if_pos]
  · exact ⟨_, rfl⟩
  · rw [hm.1]
    exact strided_length_eq hlen.symm i c.n hn

theorem parInv_init (c : ParCfg) : ParInv c ParCfg.init where
  out := by intro i _ o h; simp [ParCfg.init] at h
  msg := by intro i _ v h; simp [ParCfg.init] at h
  exited := by intro i _ h; simp [ParCfg.init] at h
  died := by intro i _ h; simp [ParCfg.init] at h
  phase := by simp [PhaseInv, ParCfg.init]

/-- a worker's step does not disturb the phase -/
theorem phase_worker {s : ParState} {i : Nat} {o : Vec} (hi : s.worker i = .running o) (hin : i < c.n)
    {w : Worker} (hw : w ≠ .idle) {p : Nat → Option Vec} (hp : ∀ j, j ≠ i → p j = s.pipe j)
    (hpi : w = .exited → p i ≠ none) (h : PhaseInv c s) :
    PhaseInv c { s with worker := setAt s.worker i w, pipe := p } := by
  obtain ⟨parent, worker, pipe⟩ := s
  simp only at hi hp
  have hws : ∀ j, j ≠ i → setAt worker i w j = worker j := fun j hj => setAt_ne _ _ hj
  have hwi : setAt worker i w i = w := setAt_same _ _ _
  have hex : ∀ (P : Nat → Prop), (∀ j, P j → worker j = .exited → pipe j ≠ none) →
      ∀ j, P j → setAt worker i w j = .exited → p j ≠ none := by
    intro P hP j hj hje
    by_cases hji : j = i
    · subst hji; rw [hwi] at hje; exact hpi hje
    · rw [hws j hji] at hje; rw [hp j hji]; exact hP j hj hje
  unfold PhaseInv at h ⊢
  cases parent with
  | starting k =>
    simp only at h
    obtain ⟨h1, h2, h3, h4, h5⟩ := h
    have hik : i < k := by
      by_contra hge
      have := h2 i (by omega) hin
      rw [this] at hi; cases hi
    refine ⟨h1, ?_, ?_, hex (· < c.n) h4, h5⟩
    · intro j hkj hj
      show setAt worker i w j = _
      rw [hws j (by omega)]; exact h2 j hkj hj
    · intro j hj
      show setAt worker i w j ≠ _
      by_cases hji : j = i
      · subst hji; rw [hwi]; exact hw
      · rw [hws j hji]; exact h3 j hj
  | joining k =>
    simp only at h
    obtain ⟨h1, h2, h3, h4⟩ := h
    refine ⟨h1, ?_, ?_, hex (· < c.n) h4⟩
    · intro j hj
      show setAt worker i w j ≠ _
      by_cases hji : j = i
      · subst hji; rw [hwi]; exact hw
      · rw [hws j hji]; exact h2 j hj
    · intro j hj
      show setAt worker i w j = _ ∨ setAt worker i w j = _
      have hji : j ≠ i := by
        rintro rfl
        rcases h3 j hj with h | h <;> rw [h] at hi <;> cases hi
      rw [hws j hji]; exact h3 j hj
  | receiving k acc =>
    simp only at h
    obtain ⟨h1, h2, -⟩ := h
    rcases h2 i hin with h | h <;> rw [h] at hi <;> cases hi
  | done acc =>
    simp only at h
    obtain ⟨-, -, h3⟩ := h
    rw [h3 i hin] at hi; cases hi
  | failed => exact h

theorem parInv_step (hn : 1 ≤ c.n) {s t : ParState} (hs : ParInv c s) (h : ParStep c s t) :
    ParInv c t := by
  obtain ⟨h1, h2, h3, h4, h5⟩ := hs
  cases h with
  | start i hp hi hc =>
    have hidle : s.worker i = .idle := by
      rw [PhaseInv, hp] at h5; exact h5.2.1 i (le_refl _) hi
    have hne : ∀ {j : Nat} {w : Worker}, w ≠ .running [] → setAt s.worker i (.running []) j = w → j ≠ i := by
      rintro j w hw hj rfl
      rw [setAt_same] at hj; exact hw hj.symm
    refine ⟨?_, ?_, ?_, ?_, ?_⟩
    · intro j hj o ho
      by_cases hji : j = i
      · subst hji
        simp only [setAt_same, Worker.running.injEq] at ho
        subst ho
        intro k y hk; simp at hk
      · simp only [setAt_ne _ _ hji] at ho; exact h1 j hj o ho
    · intro j hj v hv
      obtain ⟨m1, m2⟩ := h2 j hj v hv
      refine ⟨m1, ?_⟩
      have hji : j ≠ i := by rintro rfl; rw [hidle] at m2; cases m2
      simp only [setAt_ne _ _ hji]; exact m2
    · intro j hj he
      have hji : j ≠ i := hne (by simp) he
      simp only [setAt_ne _ _ hji] at he; exact h3 j hj he
    · intro j hj he
      have hji : j ≠ i := hne (by simp) he
      simp only [setAt_ne _ _ hji] at he; exact h4 j hj he
    · rw [PhaseInv, hp] at h5
      obtain ⟨p1, p2, p3, p4, p5⟩ := h5
      refine ⟨hi, ?_, ?_, ?_, fun _ => hc⟩
      · intro j hij hj
        show setAt s.worker i _ j = _
        rw [setAt_ne _ _ (by omega)]; exact p2 j (by omega) hj
      · intro j hj
        show setAt s.worker i _ j ≠ _
        by_cases hji : j = i
        · subst hji; rw [setAt_same]; simp
        · rw [setAt_ne _ _ hji]; exact p3 j (by omega)
      · intro j hj he
        have hji : j ≠ i := hne (by simp) he
        simp only [setAt_ne _ _ hji] at he; exact p4 j hj he
  | startFails i hp hi hc => exact ⟨h1, h2, h3, h4, hc⟩
  | started hp =>
    rw [PhaseInv, hp] at h5
    obtain ⟨p1, p2, p3, p4, p5⟩ := h5
    exact ⟨h1, h2, h3, h4, by simp [PhaseInv]; exact ⟨p3, p4⟩⟩
  | eval i out row y hi hw hr hf =>
    refine ⟨?_, ?_, ?_, ?_, ?_⟩
    · intro j hj o ho
      by_cases hji : j = i
      · subst hji
        simp only [setAt_same, Worker.running.injEq] at ho
        subst ho
        exact (h1 j hj out hw).append hr hf
      · simp only [setAt_ne _ _ hji] at ho; exact h1 j hj o ho
    · intro j hj v hv
      obtain ⟨m1, m2⟩ := h2 j hj v hv
      refine ⟨m1, ?_⟩
      have hji : j ≠ i := by rintro rfl; rw [hw] at m2; cases m2
      simp only [setAt_ne _ _ hji]; exact m2
    · intro j hj he
      have hji : j ≠ i := by rintro rfl; simp [setAt_same] at he
      simp only [setAt_ne _ _ hji] at he; exact h3 j hj he
    · intro j hj he
      have hji : j ≠ i := by rintro rfl; simp [setAt_same] at he
      simp only [setAt_ne _ _ hji] at he; exact h4 j hj he
    · exact phase_worker hw hi (by simp) (fun _ _ => rfl) (by simp) h5
  | crash i out row e hi hw hr hf =>
    refine ⟨?_, ?_, ?_, ?_, ?_⟩
    · intro j hj o ho
      have hji : j ≠ i := by rintro rfl; simp [setAt_same] at ho
      simp only [setAt_ne _ _ hji] at ho; exact h1 j hj o ho
    · intro j hj v hv
      obtain ⟨m1, m2⟩ := h2 j hj v hv
      refine ⟨m1, ?_⟩
      have hji : j ≠ i := by rintro rfl; rw [hw] at m2; cases m2
      simp only [setAt_ne _ _ hji]; exact m2
    · intro j hj he
      have hji : j ≠ i := by rintro rfl; simp [setAt_same] at he
      simp only [setAt_ne _ _ hji] at he; exact h3 j hj he
    · intro j hj he
      by_cases hji : j = i
      · exact ⟨row, rows_mem hn hr, e, hf⟩
      · simp only [setAt_ne _ _ hji] at he; exact h4 j hj he
    · exact phase_worker hw hi (by simp) (fun _ _ => rfl) (by simp) h5
  | send i out hi hw hl hsz =>
    have hmsg : Message c i out := ⟨hl, h1 i hi out hw⟩
    refine ⟨?_, ?_, ?_, ?_, ?_⟩
    · intro j hj o ho
      have hji : j ≠ i := by rintro rfl; simp [setAt_same] at ho
      simp only [setAt_ne _ _ hji] at ho; exact h1 j hj o ho
    · intro j hj v hv
      by_cases hji : j = i
      · subst hji
        simp only [setAt_same, Option.some.injEq] at hv
        subst hv
        exact ⟨hmsg, by simp [setAt_same]⟩
      · simp only [setAt_ne _ _ hji] at hv ⊢; exact h2 j hj v hv
    · intro j hj he
      by_cases hji : j = i
      · subst hji; exact ⟨out, hmsg, hsz⟩
      · simp only [setAt_ne _ _ hji] at he; exact h3 j hj he
    · intro j hj he
      have hji : j ≠ i := by rintro rfl; simp [setAt_same] at he
      simp only [setAt_ne _ _ hji] at he; exact h4 j hj he
    · exact phase_worker hw hi (by simp) (fun j hj => setAt_ne _ _ hj) (by simp [setAt_same]) h5
  | join i hp hi hw =>
    rw [PhaseInv, hp] at h5
    obtain ⟨p1, p2, p3, p4⟩ := h5
    refine ⟨h1, h2, h3, h4, hi, p2, ?_, p4⟩
    intro j hj
    by_cases hji : j = i
    · subst hji; exact hw
    · exact p3 j (by omega)
  | joined hp =>
    rw [PhaseInv, hp] at h5
    obtain ⟨p1, p2, p3, p4⟩ := h5
    exact ⟨h1, h2, h3, h4, by simp, p3, fun j _ hj => p4 j hj, by simp, by simp, by simp⟩
  | recv i acc acc' v hp hi hv ha =>
    rw [PhaseInv, hp] at h5
    obtain ⟨p1, p2, p3, p4, p5, p6⟩ := h5
    obtain ⟨m1, m2⟩ := h2 i hi v hv
    obtain ⟨a1, a2⟩ := assign_right hn p4 m1 p5 ha
    refine ⟨h1, ?_, h3, h4, hi, p2, ?_, a1, a2, ?_⟩
    · intro j hj v hv
      have hji : j ≠ i := by rintro rfl; simp [setAt_same] at hv
      simp only [setAt_ne _ _ hji] at hv; exact h2 j hj v hv
    · intro j hij hj he
      show setAt s.pipe i none j ≠ none
      rw [setAt_ne _ _ (by omega)]; exact p3 j (by omega) hj he
    · intro j hj
      by_cases hji : j = i
      · subst hji; exact m2
      · exact p6 j (by omega)
  | recvFails i acc v e hp hi hv ha =>
    rw [PhaseInv, hp] at h5
    obtain ⟨p1, p2, p3, p4, p5, p6⟩ := h5
    obtain ⟨m1, m2⟩ := h2 i hi v hv
    obtain ⟨acc', ha'⟩ := assign_ok hn p4 m1
    rw [ha] at ha'; cases ha'
  | recvLarge i acc acc' out hp hi hw hl hsz ha =>
    rw [PhaseInv, hp] at h5
    rcases h5.2.1 i hi with h | h <;> rw [h] at hw <;> cases hw
  | finish acc hp =>
    rw [PhaseInv, hp] at h5
    obtain ⟨p1, p2, p3, p4, p5, p6⟩ := h5
    exact ⟨h1, h2, h3, h4, p4, fun j hj => p5 j hj (Nat.mod_lt _ hn), p6⟩

theorem parInv_run (hn : 1 ≤ c.n) {k : Nat} {s : ParState} (h : ParRun c k s) : ParInv c s := by
  induction h with
  | zero => exact parInv_init c
  | succ _ hstep ih => exact parInv_step hn ih hstep

/-! ## Termination -/

def parentRank (c : ParCfg) : Parent → Nat
  | .starting i => (c.n - i) + 2 * c.n + 3
  | .joining i => (c.n - i) + c.n + 2
  | .receiving i _ => (c.n - i) + 1
  | .done _ => 0
  | .failed => 0

def workerRank (c : ParCfg) (i : Nat) : Worker → Nat
  | .idle => (c.rows i).length + 2
  | .running o => (c.rows i).length - o.length + 1
  | .exited => 0
  | .died => 0

/-- an upper bound on the number of remaining steps -/
def parRank (c : ParCfg) (s : ParState) : Nat :=
  parentRank c s.parent + ∑ i ∈ Finset.range c.n, workerRank c i (s.worker i)

theorem sum_setAt (c : ParCfg) (w : Nat → Worker) {i : Nat} (hi : i < c.n) (a : Worker) :
    (∑ j ∈ Finset.range c.n, workerRank c j (setAt w i a j)) + workerRank c i (w i) =
    (∑ j ∈ Finset.range c.n, workerRank c j (w j)) + workerRank c i a := by
  have hmem : i ∈ Finset.range c.n := Finset.mem_range.2 hi
  rw [← Finset.add_sum_erase _ _ hmem, ← Finset.add_sum_erase (Finset.range c.n)
    (fun j => workerRank c j (w j)) hmem, setAt_same]
  have : ∑ j ∈ (Finset.range c.n).erase i, workerRank c j (setAt w i a j)
      = ∑ j ∈ (Finset.range c.n).erase i, workerRank c j (w j) := by
    apply Finset.sum_congr rfl
    intro j hj
    rw [setAt_ne _ _ (Finset.ne_of_mem_erase hj)]
  rw [this]
  omega

@[simp] theorem rank_idle (i : Nat) : workerRank c i .idle = (c.rows i).length + 2 := rfl
@[simp] theorem rank_running (i : Nat) (o : Vec) :
    workerRank c i (.running o) = (c.rows i).length - o.length + 1 := rfl
@[simp] theorem rank_exited (i : Nat) : workerRank c i .exited = 0 := rfl
@[simp] theorem rank_died (i : Nat) : workerRank c i .died = 0 := rfl

theorem parRank_step {s t : ParState} (hs : ParInv c s) (h : ParStep c s t) :
    parRank c t < parRank c s := by
  unfold parRank
  cases h with
  | start i hp hi hc =>
    have hidle : s.worker i = .idle := by
      have := hs.phase; rw [PhaseInv, hp] at this; exact this.2.1 i (le_refl _) hi
    have := sum_setAt c s.worker hi (.running [])
    rw [hidle] at this
    rw [rank_idle, rank_running, List.length_nil] at this
    rw [hp]
    simp only [parentRank]
    omega
  | startFails i hp hi hc => rw [hp]; simp only [parentRank]; omega
  | started hp => rw [hp]; simp only [parentRank]; omega
  | eval i out row y hi hw hr hf =>
    have := sum_setAt c s.worker hi (.running (out ++ [y]))
    rw [hw] at this
    have hlt := (List.getElem?_eq_some_iff.1 hr).1
    rw [rank_running, rank_running, List.length_append, List.length_singleton] at this
    simp only
    omega
  | crash i out row e hi hw hr hf =>
    have := sum_setAt c s.worker hi .died
    rw [hw] at this
    rw [rank_running, rank_died] at this
    simp only
    omega
  | send i out hi hw hl hsz =>
    have := sum_setAt c s.worker hi .exited
    rw [hw] at this
    rw [rank_running, rank_exited] at this
    simp only
    omega
  | join i hp hi hw => rw [hp]; simp only [parentRank]; omega
  | joined hp => rw [hp]; simp only [parentRank]; omega
  | recv i acc acc' v hp hi hv ha => rw [hp]; simp only [parentRank]; omega
  | recvFails i acc v e hp hi hv ha => rw [hp]; simp only [parentRank]; omega
  | recvLarge i acc acc' out hp hi hw hl hsz ha =>
    have := sum_setAt c s.worker hi .exited
    rw [hw] at this
    rw [rank_running, rank_exited] at this
    rw [hp]; simp only [parentRank]; omega
  | finish acc hp => rw [hp]; simp only [parentRank]; omega

theorem parRun_bound (hn : 1 ≤ c.n) {k : Nat} {s : ParState} (h : ParRun c k s) :
    k + parRank c s ≤ parRank c ParCfg.init := by
  induction h with
  | zero => simp
  | succ hr hstep ih =>
    have := parRank_step (parInv_run hn hr) hstep
    omega

/-- If the objective does not raise and messages fit, some process can always go on. -/
theorem par_progress (hn : 1 ≤ c.n) (hf : ∀ row ∈ c.x, ∃ y, c.f row = .ok y)
    (hsz : ∀ v, v.length ≤ c.x.length → c.size v ≤ c.cap) {s : ParState} (hs : ParInv c s) :
    (∃ acc, s.parent = .done acc) ∨ s.parent = .failed ∨ ∃ t, ParStep c s t := by
  have hstr : ∀ i, (c.rows i).length ≤ c.x.length := by
    intro i
    unfold ParCfg.rows strided
    exact (List.length_filterMap_le _ _).trans (by simp)
  cases hp : s.parent with
  | done acc => exact Or.inl ⟨acc, rfl⟩
  | failed => exact Or.inr (Or.inl rfl)
  | starting i =>
    right; right
    have hph := hs.phase
    rw [PhaseInv, hp] at hph
    rcases Nat.lt_or_ge i c.n with hi | hi
    · cases hc : c.canStart with
      | true => exact ⟨_, .start s i hp hi hc⟩
      | false => exact ⟨_, .startFails s i hp hi hc⟩
    · have : i = c.n := le_antisymm hph.1 hi
      exact ⟨_, .started s (this ▸ hp)⟩
  | joining i =>
    right; right
    have hph := hs.phase
    rw [PhaseInv, hp] at hph
    rcases Nat.lt_or_ge i c.n with hi | hi
    · cases hw : s.worker i with
      | idle => exact absurd hw (hph.2.1 i hi)
      | exited => exact ⟨_, .join s i hp hi (Or.inl hw)⟩
      | died => exact ⟨_, .join s i hp hi (Or.inr hw)⟩
      | running o =>
        cases hr : (c.rows i)[o.length]? with
        | some row =>
          obtain ⟨y, hy⟩ := hf row (rows_mem hn hr)
          exact ⟨_, .eval s i o row y hi hw hr hy⟩
        | none =>
          have hge := List.getElem?_eq_none_iff.1 hr
          have hle : o.length ≤ (c.rows i).length := by
            by_contra hlt
            push Not at hlt
            obtain ⟨row, h1, -⟩ := hs.out i hi o hw (c.rows i).length _ (List.getElem?_eq_getElem hlt)
            rw [List.getElem?_eq_none (le_refl _)] at h1; cases h1
          have heq := le_antisymm hle hge
          exact ⟨_, .send s i o hi hw heq (hsz o (heq ▸ hstr i))⟩
    · have : i = c.n := le_antisymm hph.1 hi
      exact ⟨_, .joined s (this ▸ hp)⟩
  | receiving i acc =>
    right; right
    have hph := hs.phase
    rw [PhaseInv, hp] at hph
    obtain ⟨p1, p2, p3, p4, p5, p6⟩ := hph
    rcases Nat.lt_or_ge i c.n with hi | hi
    · have hex : s.worker i = .exited := by
        rcases p2 i hi with h | h
        · exact h
        · obtain ⟨row, hrow, e, he⟩ := hs.died i hi h
          obtain ⟨y, hy⟩ := hf row hrow
          rw [he] at hy; cases hy
      cases hv : s.pipe i with
      | none => exact absurd hv (p3 i (le_refl _) hi hex)
      | some v =>
        obtain ⟨m1, -⟩ := hs.msg i hi v hv
        obtain ⟨acc', ha⟩ := assign_ok hn p4 m1
        exact ⟨_, .recv s i acc acc' v hp hi hv ha⟩
    · have : i = c.n := le_antisymm p1 hi
      exact ⟨_, .finish s acc (this ▸ hp)⟩

/-- the parent cannot finish while some worker never exits -/
theorem par_hang (hn : 1 ≤ c.n) (hc : c.canStart = true) {i : Nat} (hi : i < c.n)
    (hno : ¬ ∃ v, Message c i v ∧ c.size v ≤ c.cap) {k : Nat} {s : ParState} (h : ParRun c k s) :
    (∀ acc, s.parent ≠ .done acc) ∧ s.parent ≠ .failed := by
  have hs := parInv_run hn h
  have hph := hs.phase
  constructor
  · intro acc hp
    rw [PhaseInv, hp] at hph
    exact hno (hs.exited i hi (hph.2.2 i hi))
  · intro hp
    rw [PhaseInv, hp] at hph
    rw [hc] at hph; cases hph

end GPyOpt
