import Verif.Model.OutputFiles
import Mathlib.Data.List.Basic

/-!
# C143: experiments keep their output files

An experiment does not destroy the output files of another one. This holds for files with default names that are created at
different readings of the clock, whatever the names of experiments and sections are. It is false for experiments that start in
the same second, and for files whose name is set in the configuration.
-/

namespace GPyOpt.Props

open GPyOpt

/-! ## Splitting at separators -/

theorem split_left {c : Char} : ∀ {r1 r2 l1 l2 : List Char}, c ∉ r1 → c ∉ r2 →
    r1 ++ c :: l1 = r2 ++ c :: l2 → r1 = r2 ∧ l1 = l2 := by
  intro r1
  induction r1 with
  | nil =>
    intro r2 l1 l2 _ h2 h
    cases r2 with
    | nil => simpa using h
    | cons b r2 => simp at h; exact absurd (h.1 ▸ List.mem_cons_self) h2
  | cons a r1 ih =>
    intro r2 l1 l2 h1 h2 h
    cases r2 with
    | nil => simp at h; exact absurd (h.1 ▸ List.mem_cons_self) h1
    | cons b r2 =>
      simp only [List.cons_append, List.cons.injEq] at h
      obtain ⟨e1, e2⟩ := ih (fun hc => h1 (List.mem_cons_of_mem _ hc)) (fun hc => h2 (List.mem_cons_of_mem _ hc)) h.2
      exact ⟨by rw [h.1, e1], e2⟩

theorem split_right {c : Char} {l1 l2 r1 r2 : List Char} (h1 : c ∉ r1) (h2 : c ∉ r2)
    (h : l1 ++ c :: r1 = l2 ++ c :: r2) : l1 = l2 ∧ r1 = r2 := by
  have := congrArg List.reverse h
  simp only [List.reverse_append, List.reverse_cons, List.append_assoc, List.singleton_append] at this
  obtain ⟨e1, e2⟩ := split_left (by simpa using h1) (by simpa using h2) this
  exact ⟨List.reverse_injective e2, List.reverse_injective e1⟩

theorem strNat_digits {n : Nat} {c : Char} (h : c ∈ strNat n) : c.isDigit = true :=
  Nat.isDigit_of_mem_toDigits (by norm_num) (by norm_num) h

theorem strNat_injective {m n : Nat} (h : strNat m = strNat n) : m = n := by
  have h1 := Nat.ofDigitChars_toDigits (b := 10) (n := m) (by norm_num) (by norm_num)
  have h2 := Nat.ofDigitChars_toDigits (b := 10) (n := n) (by norm_num) (by norm_num)
  unfold strNat at h
  rw [h, h2] at h1
  exact h1.symm

theorem dot_notMem (n : Nat) : '.' ∉ strNat n := fun h => by
  have := strNat_digits h; revert this; decide

theorem underscore_notMem (n : Nat) : '_' ∉ strNat n := fun h => by
  have := strNat_digits h; revert this; decide

/-- The date at the end of a string can be read off. -/
theorem datestr_unique {p1 p2 : List Char} {t1 t2 : ClockReading}
    (h : p1 ++ '_' :: genDatestr t1 = p2 ++ '_' :: genDatestr t2) : p1 = p2 ∧ t1 = t2 := by
  have e : ∀ (p : List Char) (t : ClockReading), p ++ '_' :: genDatestr t
      = (((((p ++ '_' :: strNat t.year) ++ '.' :: strNat t.month) ++ '.' :: strNat t.day) ++ '_' :: strNat t.hour)
        ++ '.' :: strNat t.minute) ++ '.' :: strNat t.second := by
    intro p t
    simp [genDatestr, List.append_assoc]
  rw [e, e] at h
  obtain ⟨h, e6⟩ := split_right (dot_notMem _) (dot_notMem _) h
  obtain ⟨h, e5⟩ := split_right (dot_notMem _) (dot_notMem _) h
  obtain ⟨h, e4⟩ := split_right (underscore_notMem _) (underscore_notMem _) h
  obtain ⟨h, e3⟩ := split_right (dot_notMem _) (dot_notMem _) h
  obtain ⟨h, e2⟩ := split_right (dot_notMem _) (dot_notMem _) h
  obtain ⟨h, e1⟩ := split_right (underscore_notMem _) (underscore_notMem _) h
  refine ⟨h, ?_⟩
  cases t1; cases t2
  simp only [ClockReading.mk.injEq]
  exact ⟨strNat_injective e1, strNat_injective e2, strNat_injective e3, strNat_injective e4, strNat_injective e5,
    strNat_injective e6⟩

theorem pathJoin_suffix (a b : List Char) : ∃ p, pathJoin a b = p ++ b := by
  unfold pathJoin
  split_ifs
  · exact ⟨[], rfl⟩
  · exact ⟨a, rfl⟩
  · exact ⟨a ++ ['/'], by simp⟩

theorem ext_unique {k1 k2 : SaverKind} {p1 p2 : List Char} (h : p1 ++ k1.ext = p2 ++ k2.ext) : p1 = p2 ∧ k1 = k2 := by
  cases k1 <;> cases k2
  · exact ⟨List.append_cancel_right h, rfl⟩
  · exact absurd h (by
      intro h
      have := congrArg List.getLast? h
      simp [SaverKind.ext] at this)
  · exact absurd h (by
      intro h
      have := congrArg List.getLast? h
      simp [SaverKind.ext] at this)
  · exact ⟨List.append_cancel_right h, rfl⟩

/-- **C143.** Data savers with default names that were created at different readings of the clock, or of different classes,
have different files, whatever their directories, experiments and sections are called. -/
theorem C143_different_files (s1 s2 : SaverArgs) (h1 : s1.filename = none) (h2 : s2.filename = none)
    (h : s1.created ≠ s2.created ∨ s1.kind ≠ s2.kind) : s1.path ≠ s2.path := by
  intro he
  unfold SaverArgs.path at he
  rw [h1, h2] at he
  simp only at he
  obtain ⟨q1, e1⟩ := pathJoin_suffix s1.outpath
    (s1.name ++ ('_' :: (s1.prjname ++ ('_' :: (genDatestr s1.created ++ s1.kind.ext)))))
  obtain ⟨q2, e2⟩ := pathJoin_suffix s2.outpath
    (s2.name ++ ('_' :: (s2.prjname ++ ('_' :: (genDatestr s2.created ++ s2.kind.ext)))))
  rw [e1, e2] at he
  have e : ∀ (q n p d x : List Char), q ++ (n ++ ('_' :: (p ++ ('_' :: (d ++ x)))))
      = ((q ++ n ++ '_' :: p) ++ '_' :: d) ++ x := by
    intro q n p d x; simp [List.append_assoc]
  rw [e, e] at he
  obtain ⟨he, hk⟩ := ext_unique he
  obtain ⟨-, ht⟩ := datestr_unique he
  exact h.elim (fun h => h ht) fun h => h hk

/-- C143: also data savers of one directory that are created at once have different files, if the names of their sections have
no underscore and do not start with a slash, and the names of sections or experiments differ. -/
theorem C143_different_names (s1 s2 : SaverArgs) (h1 : s1.filename = none) (h2 : s2.filename = none)
    (ho : s1.outpath = s2.outpath) (hu1 : '_' ∉ s1.name) (hu2 : '_' ∉ s2.name)
    (hs1 : s1.name.head? ≠ some '/') (hs2 : s2.name.head? ≠ some '/')
    (h : s1.name ≠ s2.name ∨ s1.prjname ≠ s2.prjname) : s1.path ≠ s2.path := by
  intro he
  unfold SaverArgs.path at he
  rw [h1, h2, ho] at he
  simp only at he
  have hrel : ∀ (n r : List Char), n.head? ≠ some '/' → (n ++ '_' :: r).head? ≠ some '/' := by
    intro n r hn
    cases n with
    | nil => simp
    | cons a n => simpa using hn
  have hj : ∀ b : List Char, b.head? ≠ some '/' → pathJoin s2.outpath b
      = (if s2.outpath = [] ∨ s2.outpath.getLast? = some '/' then s2.outpath else s2.outpath ++ ['/']) ++ b := by
    intro b hb
    unfold pathJoin
    rw [if_neg hb]
    split_ifs <;> simp
  rw [hj _ (hrel _ _ hs1), hj _ (hrel _ _ hs2)] at he
  have he := List.append_cancel_left he
  obtain ⟨e1, e2⟩ := split_left hu1 hu2 he
  have e : ∀ (p d x : List Char), p ++ ('_' :: (d ++ x)) = (p ++ '_' :: d) ++ x := by
    intro p d x; simp
  rw [e, e] at e2
  obtain ⟨e2, -⟩ := ext_unique e2
  obtain ⟨e3, -⟩ := datestr_unique e2
  exact h.elim (fun h => h e1) fun h => h e3

/-! ## Contents -/

theorem apply_other {α : Type} (fs : FileSys α) (ev : SaverEvent α) (p : List Char) (h : ev.saver.path ≠ p) :
    ev.apply fs p = fs p := by
  cases ev with
  | create s =>
    have h' : p ≠ s.path := fun hc => h hc.symm
    cases hk : s.kind <;> simp [SaverEvent.apply, hk, h']
  | save s lines =>
    have h' : p ≠ s.path := fun hc => h hc.symm
    cases hk : s.kind <;> simp [SaverEvent.apply, hk, h']

/-- **C143 (partial).** The file of a data saver with a default name keeps its content whatever data savers with default names
that were created at other readings of the clock do, in any order and number. Missing: readings that occur twice (the same
second, or the hour that is repeated at the end of daylight saving time), and names set in the configuration. -/
theorem C143_files_are_kept_partial {α : Type} (s : SaverArgs) (hs : s.filename = none) (fs : FileSys α)
    (es : List (SaverEvent α))
    (h : ∀ ev ∈ es, ev.saver.filename = none ∧ ev.saver.created ≠ s.created) :
    SaverEvent.applyAll fs es s.path = fs s.path := by
  induction es generalizing fs with
  | nil => rfl
  | cons ev es ih =>
    have h0 := h ev (by simp)
    show SaverEvent.applyAll (ev.apply fs) es s.path = _
    rw [ih _ fun e he => h e (by simp [he])]
    exact apply_other fs ev _ (C143_different_files _ _ h0.1 hs (.inl h0.2))

/-- C143: what a logger has in its file in the end is what it has saved since it was created, in order, whatever data savers
with default names that were created at other readings of the clock do in between. -/
theorem C143_logger_content {α : Type} (s : SaverArgs) (hs : s.filename = none) (hk : s.kind = .logger) (fs : FileSys α)
    (es : List (SaverEvent α))
    (h : ∀ ev ∈ es, (∃ lines, ev = .save s lines) ∨ (ev.saver.filename = none ∧ ev.saver.created ≠ s.created)) :
    SaverEvent.applyAll fs (.create s :: es) s.path
      = some (es.flatMap fun ev => match ev with
        | .save s' lines => if s' = s then lines else []
        | .create _ => []) := by
  have key : ∀ (es : List (SaverEvent α)) (fs : FileSys α) (old : List α), fs s.path = some old →
      (∀ ev ∈ es, (∃ lines, ev = .save s lines) ∨ (ev.saver.filename = none ∧ ev.saver.created ≠ s.created)) →
      SaverEvent.applyAll fs es s.path = some (old ++ es.flatMap fun ev => match ev with
        | .save s' lines => if s' = s then lines else []
        | .create _ => []) := by
    intro es
    induction es with
    | nil => intro fs old h0 _; simpa [SaverEvent.applyAll] using h0
    | cons ev es ih =>
      intro fs old h0 hes
      show SaverEvent.applyAll (ev.apply fs) es s.path = _
      rcases hes ev (by simp) with ⟨lines, rfl⟩ | ⟨hf, hc⟩
      · have : SaverEvent.apply fs (.save s lines) s.path = some (old ++ lines) := by
          simp [SaverEvent.apply, hk, h0]
        rw [ih _ _ this fun e he => hes e (by simp [he])]
        simp
      · have hne := C143_different_files _ _ hf hs (.inl hc)
        rw [ih _ old (by rw [apply_other fs ev _ hne]; exact h0) fun e he => hes e (by simp [he])]
        cases ev with
        | create s' => simp
        | save s' lines =>
          have : s' ≠ s := by rintro rfl; exact hc rfl
          simp [this]
  have h0 : SaverEvent.apply fs (.create s) s.path = some [] := by simp [SaverEvent.apply, hk]
  have := key es _ [] h0 h
  simpa [SaverEvent.applyAll] using this

/-- Two loggers of the examples. -/
def exLogger : SaverArgs :=
  { kind := .logger, outpath := ['o', 'u', 't'], prjname := ['e', 'x', 'p'], name := ['l', 'o', 'g'], filename := none
    created := ⟨2016, 1, 23, 4, 5, 6⟩ }

/-- The path of the example: the numbers are not padded. -/
example : exLogger.path = "out/log_exp_2016.1.23_4.5.6.csv".toList := by decide +kernel

/-- Without padding, the dates 1.23 and 12.3 are still different. -/
example : exLogger.path ≠ { exLogger with created := ⟨2016, 12, 3, 4, 5, 6⟩ }.path :=
  C143_different_files _ _ rfl rfl (.inl (by decide))

/-- **C143 (negation).** Two experiments with the same names that start in the same second: the second one empties the log of
the first one. -/
theorem C143_same_second_counterexample {α : Type} (s1 s2 : SaverArgs) (h : s1 = s2) (hk : s2.kind = .logger)
    (fs : FileSys α) (lines : List α) :
    SaverEvent.applyAll fs [.create s1, .save s1 lines] s1.path = some lines ∧
    SaverEvent.applyAll fs [.create s1, .save s1 lines, .create s2] s1.path = some [] := by
  subst h
  simp [SaverEvent.applyAll, SaverEvent.apply, hk]

/-- **C143 (negation).** A name set in the configuration: every later experiment empties the log of the earlier ones, at any
time and whatever the experiments are called. -/
theorem C143_filename_counterexample {α : Type} (s1 s2 : SaverArgs) (f : List Char) (h1 : s1.filename = some f)
    (h2 : s2.filename = some f) (ho : s1.outpath = s2.outpath) (hk1 : s1.kind = .logger) (hk2 : s2.kind = .logger)
    (fs : FileSys α) (lines : List α) :
    SaverEvent.applyAll fs [.create s1, .save s1 lines] s1.path = some lines ∧
    SaverEvent.applyAll fs [.create s1, .save s1 lines, .create s2] s1.path = some [] := by
  have hp : s1.path = s2.path := by simp [SaverArgs.path, h1, h2, ho]
  simp [SaverEvent.applyAll, SaverEvent.apply, hk1, hk2, hp]

/-- **C143 (negation).** Two loggers of different experiments and sections in the same second share a file if the names have
underscores: `log_a` of `b` and `log` of `a_b`. -/
theorem C143_underscore_counterexample :
    ({ exLogger with name := "log_a".toList, prjname := "b".toList } : SaverArgs).path
      = ({ exLogger with name := "log".toList, prjname := "a_b".toList } : SaverArgs).path := by
  decide +kernel

end GPyOpt.Props
