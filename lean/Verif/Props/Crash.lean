import Verif.Model.Crash
import Verif.Props.Csv
import Verif.Props.Report

/-!
# C144: crashes and result files

If the process is killed at any moment, the evaluations made so far are on the disk. This is false: the file is written after
the loop, so that all evaluations of a run are lost before. What holds: the file has its old content, or the beginning of the
new one, at every moment; a file that was cut off is read as the first evaluations, except that its last row can be wrong.
-/

namespace GPyOpt.Props

open GPyOpt Spec

/-! ## Which content is possible -/

/-- The action works on the file. -/
def Touches (p : List Char) : RunAct → Prop
  | .call _ => False
  | .openW q => q = p
  | .write q _ => q = p
  | .close q => q = p

theorem flush_other {d : DiskState} {p q : List Char} {k : Nat} (h : q ≠ p) :
    (d.flush p k).disk q = d.disk q ∧ (d.flush p k).buf q = d.buf q := by
  simp [DiskState.flush, h]

theorem step_other {d : DiskState} {p : List Char} {a : RunAct} (h : ¬ Touches p a) :
    (a.step d).disk p = d.disk p ∧ (a.step d).buf p = d.buf p := by
  cases a with
  | call x => exact ⟨rfl, rfl⟩
  | openW q => have : p ≠ q := fun e => h e.symm; simp [RunAct.step, this]
  | write q t => have : p ≠ q := fun e => h e.symm; simp [RunAct.step, this]
  | close q => have : p ≠ q := fun e => h e.symm; simp [RunAct.step, this]

theorem reaches_append {a b : List RunAct} {d d' : DiskState} (h : Reaches (a ++ b) d d') :
    ∃ m, Reaches a d m ∧ Reaches b m d' := by
  generalize hab : a ++ b = ab at h
  induction h generalizing a with
  | done d =>
    obtain ⟨rfl, rfl⟩ := List.append_eq_nil_iff.1 hab
    exact ⟨d, .done d, .done d⟩
  | flush p k h ih =>
    obtain ⟨m, h1, h2⟩ := ih hab
    exact ⟨m, .flush p k h1, h2⟩
  | @act c as d d' h ih =>
    cases a with
    | nil => exact ⟨d, .done d, by rw [List.nil_append] at hab; rw [hab]; exact .act c h⟩
    | cons c' a =>
      simp only [List.cons_append, List.cons.injEq] at hab
      obtain ⟨m, h1, h2⟩ := ih hab.2
      exact ⟨m, by rw [hab.1]; exact .act c h1, h2⟩

/-- Without buffered characters and actions on a file its content does not change. -/
theorem reaches_untouched {p : List Char} {as : List RunAct} {d d' : DiskState} (h : Reaches as d d')
    (has : ∀ a ∈ as, ¬ Touches p a) (hb : d.buf p = []) : d'.disk p = d.disk p ∧ d'.buf p = [] := by
  induction h with
  | done d => exact ⟨rfl, hb⟩
  | @flush q k as d d' h ih =>
    by_cases hq : p = q
    · subst hq
      have h1 : (d.flush p k).buf p = [] := by simp [DiskState.flush, hb]
      have h2 : (d.flush p k).disk p = d.disk p := by
        simp only [DiskState.flush, if_true, hb, List.take_nil, List.append_nil]
        cases d.disk p <;> rfl
      obtain ⟨e1, e2⟩ := ih has h1
      exact ⟨e1.trans h2, e2⟩
    · obtain ⟨e1, e2⟩ := ih has (by rw [(flush_other hq).2]; exact hb)
      exact ⟨e1.trans (flush_other hq).1, e2⟩
  | @act a as d d' h ih =>
    have ha := step_other (d := d) (has a (by simp))
    obtain ⟨e1, e2⟩ := ih (fun b hb' => has b (by simp [hb'])) (by rw [ha.2]; exact hb)
    exact ⟨e1.trans ha.1, e2⟩

/-- While a file is written, what is on the disk and in the buffer is what was written. -/
theorem reaches_writing {p : List Char} {pieces : List (List Char)} {d d' : DiskState}
    (h : Reaches (pieces.map (RunAct.write p)) d d') {t : List Char}
    (hd : ∃ c, d.disk p = some c ∧ c ++ d.buf p = t) :
    ∃ c, d'.disk p = some c ∧ c ++ d'.buf p = t ++ pieces.flatten := by
  generalize hw : pieces.map (RunAct.write p) = ws at h
  induction h generalizing pieces t with
  | done d =>
    rw [List.map_eq_nil_iff] at hw
    subst hw
    simpa using hd
  | @flush q k as d d' h ih =>
    refine ih ?_ hw
    obtain ⟨c, h1, h2⟩ := hd
    by_cases hq : p = q
    · subst hq
      exact ⟨c ++ (d.buf p).take k, by simp [DiskState.flush, h1], by
        simp only [DiskState.flush, if_true, List.append_assoc, List.take_append_drop]; exact h2⟩
    · exact ⟨c, by rw [(flush_other hq).1]; exact h1, by rw [(flush_other hq).2]; exact h2⟩
  | @act a as d d' h ih =>
    cases pieces with
    | nil => simp at hw
    | cons w pieces =>
      simp only [List.map_cons, List.cons.injEq] at hw
      obtain ⟨rfl, hw⟩ := hw
      obtain ⟨c, h1, h2⟩ := hd
      have := ih (pieces := pieces) (t := t ++ w) ⟨c, by simpa [RunAct.step] using h1, by
        simp only [RunAct.step, if_true, ← List.append_assoc, h2]⟩ hw
      simpa using this

theorem reaches_single {a : RunAct} {d d' : DiskState} {P : DiskState → Prop}
    (hP : ∀ d q k, P d → P (d.flush q k)) (hd : P d) (h : Reaches [a] d d') :
    ∃ m, P m ∧ Reaches [] (a.step m) d' := by
  generalize hl : [a] = l at h
  induction h with
  | done d => simp at hl
  | flush q k h ih => exact ih (hP _ _ _ hd) hl
  | act b h ih =>
    simp only [List.cons.injEq] at hl
    obtain ⟨rfl, rfl⟩ := hl
    exact ⟨_, hd, h⟩

/-- After a file is opened it is empty. -/
theorem opening {p : List Char} {d m : DiskState} (h : Reaches [.openW p] d m) :
    ∃ c, m.disk p = some c ∧ c ++ m.buf p = [] := by
  obtain ⟨m1, -, g2⟩ := reaches_single (P := fun _ => True) (fun _ _ _ _ => trivial) trivial h
  have := reaches_writing (pieces := []) (p := p) (t := []) g2 ⟨[], by simp [RunAct.step], by simp [RunAct.step]⟩
  simpa using this

/-- After a file is closed all is on the disk. -/
theorem closing {p : List Char} {d d' : DiskState} {t : List Char} (h : Reaches [.close p] d d')
    (hd : ∃ c, d.disk p = some c ∧ c ++ d.buf p = t) : d'.disk p = some t ∧ d'.buf p = [] := by
  obtain ⟨m, ⟨c, h1, h2⟩, g⟩ := reaches_single (P := fun d => ∃ c, d.disk p = some c ∧ c ++ d.buf p = t)
    (fun d q k hd => by
      have := reaches_writing (pieces := []) (p := p) (t := t) (.flush q k (.done _)) hd
      simpa using this) hd h
  have hm : (RunAct.step m (.close p)).buf p = [] := by simp [RunAct.step]
  obtain ⟨e1, e2⟩ := reaches_untouched g (by simp) hm
  exact ⟨by rw [e1]; simp [RunAct.step, h1, h2], e2⟩

/-- Saving a file, killed anywhere: the old content, or the beginning of the new one. -/
theorem saving_crash {p : List Char} {pieces : List (List Char)} {pre : List RunAct} (hpre : pre <+: saveActs p pieces)
    {d d' : DiskState} (hb : d.buf p = []) (h : Reaches pre d d') :
    d'.disk p = d.disk p ∨ ∃ c, d'.disk p = some c ∧ c <+: pieces.flatten := by
  cases pre with
  | nil => exact .inl (reaches_untouched h (by simp) hb).1
  | cons a pre =>
    right
    obtain ⟨m, h1, h2⟩ := reaches_append (a := [a]) (b := pre) h
    unfold saveActs at hpre
    rw [List.cons_prefix_cons] at hpre
    obtain ⟨rfl, hpre⟩ := hpre
    have hm := opening h1
    -- the remaining actions: some writes, and possibly the end
    rcases List.prefix_concat_iff.1 hpre with rfl | hx
    · obtain ⟨m2, g1, g2⟩ := reaches_append h2
      have := closing g2 (reaches_writing g1 hm)
      exact ⟨_, this.1, by rw [List.nil_append]⟩
    · obtain ⟨k, rfl⟩ : ∃ k, pre = (pieces.take k).map (RunAct.write p) :=
        ⟨pre.length, by rw [List.map_take]; exact List.prefix_iff_eq_take.1 hx⟩
      obtain ⟨c, e1, e2⟩ := reaches_writing h2 hm
      refine ⟨c, e1, List.IsPrefix.trans ⟨_, e2⟩ ?_⟩
      rw [List.nil_append]
      conv_rhs => rw [← List.take_append_drop k pieces, List.flatten_append]
      exact List.prefix_append _ _

/-- A file that was saved has the new content. -/
theorem saving_done {p : List Char} {pieces : List (List Char)} {d d' : DiskState}
    (h : Reaches (saveActs p pieces) d d') : d'.disk p = some pieces.flatten ∧ d'.buf p = [] := by
  obtain ⟨m, h1, h2⟩ := reaches_append (a := [RunAct.openW p]) h
  obtain ⟨m2, g1, g2⟩ := reaches_append h2
  have := closing g2 (reaches_writing g1 (opening h1))
  simpa using this

/-! ## A whole run -/

theorem saveActs_touches {p q : List Char} {pieces : List (List Char)} (h : q ≠ p) :
    ∀ a ∈ saveActs p pieces, ¬ Touches q a := by
  intro a ha
  unfold saveActs at ha
  simp only [List.mem_cons, List.mem_append, List.mem_map, List.not_mem_nil, or_false] at ha
  rcases ha with rfl | ⟨w, _, rfl⟩ | rfl <;> exact fun e => h e.symm

theorem callActs_touches {s s' : BOState} (q : List Char) : ∀ a ∈ callActs s s', ¬ Touches q a := by
  intro a ha
  unfold callActs at ha
  obtain ⟨c, _, rfl⟩ := List.mem_map.1 ha
  exact id

theorem prefix_append_cases {α : Type*} {pre a b : List α} (h : pre <+: a ++ b) :
    pre <+: a ∨ ∃ pre', pre = a ++ pre' ∧ pre' <+: b := by
  rcases le_total pre.length a.length with hl | hl
  · exact .inl (List.prefix_of_prefix_length_le h (List.prefix_append a b) hl)
  · obtain ⟨pre', rfl⟩ := List.prefix_of_prefix_length_le (List.prefix_append a b) h hl
    exact .inr ⟨pre', rfl, (List.prefix_append_right_inj a).1 h⟩

/-- The part of the actions that does not concern the evaluations. -/
theorem runActs_split (paths : FilePaths) (pieces : FilePieces) (s : BOState) (r : BOState × RunResult × Files)
    (h1 : paths.evaluations ≠ paths.report) (h2 : paths.evaluations ≠ paths.models) :
    ∃ a b, runActs paths pieces s r = a ++ ((match r.2.2.evaluations with
        | some t => saveActs paths.evaluations (pieces.table t)
        | none => []) ++ b) ∧
      (∀ x ∈ a, ¬ Touches paths.evaluations x) ∧ ∀ x ∈ b, ¬ Touches paths.evaluations x := by
  unfold runActs fileActs
  rw [← List.append_assoc]
  refine ⟨_, _, rfl, ?_, ?_⟩
  · intro x hx
    rw [List.mem_append] at hx
    rcases hx with hx | hx
    · exact callActs_touches _ x hx
    · split at hx
      · exact saveActs_touches h1 x hx
      · simp at hx
  · intro x hx
    split at hx
    · exact saveActs_touches h2 x hx
    · simp at hx

/-- **C144** (partial: the file has nothing of the run before the end of the run). Whenever the process is killed, the file
for the evaluations has its old content or the beginning of the table of all evaluations. -/
theorem C144_content_partial (paths : FilePaths) (pieces : FilePieces) (s : BOState) (r : BOState × RunResult × Files)
    (h1 : paths.evaluations ≠ paths.report) (h2 : paths.evaluations ≠ paths.models)
    {d d' : DiskState} (hb : d.buf paths.evaluations = []) (h : CrashedIn (runActs paths pieces s r) d d') :
    d'.disk paths.evaluations = d.disk paths.evaluations ∨
      ∃ t c, r.2.2.evaluations = some t ∧ d'.disk paths.evaluations = some c ∧ c <+: (pieces.table t).flatten := by
  obtain ⟨a, b, hs, ha, hbb⟩ := runActs_split paths pieces s r h1 h2
  obtain ⟨pre, hpre, hr⟩ := h
  rw [hs] at hpre
  rcases prefix_append_cases hpre with hpre | ⟨pre', rfl, hpre'⟩
  · exact .inl (reaches_untouched hr (fun x hx => ha x (hpre.subset hx)) hb).1
  · obtain ⟨m, g1, g2⟩ := reaches_append hr
    obtain ⟨e1, e2⟩ := reaches_untouched g1 ha hb
    rcases ht : r.2.2.evaluations with _ | t
    · rw [ht] at hpre'
      exact .inl ((reaches_untouched g2 (fun x hx => hbb x (by simpa using hpre'.subset hx)) e2).1.trans e1)
    · rw [ht] at hpre'
      rcases prefix_append_cases hpre' with hpre' | ⟨pre2, rfl, hpre2⟩
      · rcases saving_crash hpre' e2 g2 with h | ⟨c, hc, hp⟩
        · exact .inl (h.trans e1)
        · exact .inr ⟨t, c, rfl, hc, hp⟩
      · obtain ⟨m2, k1, k2⟩ := reaches_append g2
        obtain ⟨f1, f2⟩ := saving_done k1
        have := (reaches_untouched k2 (fun x hx => hbb x (hpre2.subset hx)) f2).1
        exact .inr ⟨t, _, rfl, this.trans f1, List.prefix_rfl⟩

/-- **C144.** After the run the file has the table of all evaluations, whatever happens to the process afterwards. -/
theorem C144_completed (paths : FilePaths) (pieces : FilePieces) (s : BOState) (r : BOState × RunResult × Files)
    (h1 : paths.evaluations ≠ paths.report) (h2 : paths.evaluations ≠ paths.models)
    {t : List String × Mat} (ht : r.2.2.evaluations = some t)
    {d d' : DiskState} (hb : d.buf paths.evaluations = []) (h : Reaches (runActs paths pieces s r) d d') :
    d'.disk paths.evaluations = some (pieces.table t).flatten := by
  obtain ⟨a, b, hs, ha, hbb⟩ := runActs_split paths pieces s r h1 h2
  rw [hs, ht] at h
  obtain ⟨m, g1, g2⟩ := reaches_append h
  obtain ⟨e1, e2⟩ := reaches_untouched g1 ha hb
  obtain ⟨m2, k1, k2⟩ := reaches_append g2
  obtain ⟨f1, f2⟩ := saving_done k1
  exact (reaches_untouched k2 hbb f2).1.trans f1

/-- **C144.** Files other than the three that the user named keep their content, whenever the process is killed. -/
theorem C144_other_files (paths : FilePaths) (pieces : FilePieces) (s : BOState) (r : BOState × RunResult × Files)
    {q : List Char} (h1 : q ≠ paths.report) (h2 : q ≠ paths.evaluations) (h3 : q ≠ paths.models)
    {d d' : DiskState} (hb : d.buf q = []) (h : CrashedIn (runActs paths pieces s r) d d') :
    d'.disk q = d.disk q := by
  obtain ⟨pre, hpre, hr⟩ := h
  refine (reaches_untouched hr (fun x hx => ?_) hb).1
  have hx := hpre.subset hx
  unfold runActs fileActs at hx
  simp only [List.mem_append] at hx
  rcases hx with hx | hx | hx | hx
  · exact callActs_touches _ x hx
  all_goals
    split at hx
    · exact saveActs_touches ‹_› x hx
    · simp at hx

/-- **C144, negation.** Until the loop has ended, none of the evaluations are on the disk: whenever the process is killed
during the calls of the objective, every file is what it was. -/
theorem C144_evaluations_lost_counterexample (s s' : BOState) {d d' : DiskState} (hb : ∀ q, d.buf q = [])
    (h : CrashedIn (callActs s s') d d') : d'.disk = d.disk := by
  obtain ⟨pre, hpre, hr⟩ := h
  funext q
  exact (reaches_untouched hr (fun x hx => callActs_touches q x (hpre.subset hx)) (hb q)).1

/-- **C144, negation.** If the run raises (for instance because the objective does at the last evaluation), none of the
evaluations are ever written. -/
theorem C144_exception_counterexample (env : BOEnv) (attrs : Option BayesAttrs) (names : List String) (fa : FileArgs)
    (a : RunArgs) (fuel : Nat) (s : BOState) (paths : FilePaths) (pieces : FilePieces)
    {e : Err} (he : (runOptimization env a fuel s).2 = .raised e) {d d' : DiskState} (hb : ∀ q, d.buf q = [])
    (h : Reaches (runActs paths pieces s (runWithFiles env attrs names fa a fuel s)) d d') : d'.disk = d.disk := by
  have hr : runWithFiles env attrs names fa a fuel s = ((runOptimization env a fuel s).1, .raised e, {}) := by
    unfold runWithFiles
    rcases hro : runOptimization env a fuel s with ⟨s', res⟩
    rw [hro] at he
    simp only at he
    subst he
    rfl
  rw [hr] at h
  refine C144_evaluations_lost_counterexample s (runOptimization env a fuel s).1 hb ⟨_, List.prefix_rfl, ?_⟩
  simpa [runActs, fileActs] using h

/-- **C144, negation.** The evaluations of earlier runs are lost as well if the process is killed while it saves: the file
can be empty, whatever it was. -/
theorem C144_old_file_lost_counterexample (paths : FilePaths) (pieces : FilePieces) (s : BOState)
    (r : BOState × RunResult × Files) {t : List String × Mat} (ht : r.2.2.evaluations = some t) (d : DiskState) :
    ∃ d', CrashedIn (runActs paths pieces s r) d d' ∧ d'.disk paths.evaluations = some [] := by
  obtain ⟨pre, post, hp⟩ : ∃ pre post, runActs paths pieces s r = pre ++ RunAct.openW paths.evaluations :: post := by
    unfold runActs fileActs
    rw [ht]
    simp only [saveActs]
    rw [← List.append_assoc]
    exact ⟨_, _, rfl⟩
  have hreach : ∀ (as : List RunAct) (d : DiskState), Reaches as d (as.foldl RunAct.step d) := by
    intro as
    induction as with
    | nil => exact fun d => .done d
    | cons a as ih => exact fun d => .act a (ih _)
  refine ⟨_, ⟨pre ++ [RunAct.openW paths.evaluations], ?_, hreach _ d⟩, ?_⟩
  · rw [hp]
    exact ⟨post, by simp⟩
  · simp [RunAct.step]

/-! ## Reading a file that was cut off -/

theorem run_append (s : CsvReader) (a b : List Char) :
    s.run (a ++ b) = match s.run a with
      | .error e => .error e
      | .ok s' => s'.run b := by
  induction a generalizing s with
  | nil => rfl
  | cons c a ih =>
    rw [List.cons_append, CsvReader.run, CsvReader.run]
    cases s.char c with
    | error e => rfl
    | ok s' =>
      simp only
      split <;> exact ih _

theorem char_rows {s s' : CsvReader} {c : Char} (h : s.char c = .ok s') : s'.rows = s.rows := by
  unfold CsvReader.char at h
  cases hs : s.st <;> rw [hs] at h <;> simp only at h <;> (repeat' split at h) <;>
    first
    | (simp only [Except.ok.injEq] at h; subst h
       first
       | rfl
       | (unfold CsvReader.startField; (repeat' split) <;> rfl))
    | simp at h

theorem eol_rows (s : CsvReader) : s.rows <+: s.eol.rows := by
  unfold CsvReader.eol
  split <;> simp [CsvReader.emit, CsvReader.save]

theorem run_rows_mono {s s' : CsvReader} {t : List Char} (h : s.run t = .ok s') : s.rows <+: s'.rows := by
  induction t generalizing s with
  | nil => simp only [CsvReader.run, Except.ok.injEq] at h; subst h; exact List.prefix_rfl
  | cons c t ih =>
    rw [CsvReader.run] at h
    rcases hc : s.char c with e | s1
    · rw [hc] at h; simp at h
    · rw [hc] at h
      simp only at h
      have h1 := char_rows hc
      split at h
      · exact (h1 ▸ eol_rows s1).trans (ih h)
      · exact h1 ▸ ih h

theorem emit_at_end {s : CsvReader} {rows : List (List (List Char))} (h : s.eol = { rows := rows }) :
    s.rows = rows.dropLast := by
  unfold CsvReader.eol at h
  split at h
  · simp only [CsvReader.emit, CsvReader.mk.injEq] at h; rw [← h.2.2.2]; simp
  · simp only [CsvReader.emit, CsvReader.mk.injEq] at h; rw [← h.2.2.2]; simp
  · simp only [CsvReader.emit, CsvReader.save, CsvReader.mk.injEq] at h; rw [← h.2.2.2]; simp
  · simp only [CsvReader.emit, CsvReader.save, CsvReader.mk.injEq] at h; rw [← h.2.2.2]; simp
  · simp only [CsvReader.emit, CsvReader.save, CsvReader.mk.injEq] at h; rw [← h.2.2.2]; simp
  · next hq => rw [h] at hq; simp at hq

/-- The reader inside a row has found the rows before it. -/
theorem run_partial_row {r : List (List Char)} {rows : List (List (List Char))} {q : List Char}
    (hq : q <+: (if r = [[]] then ['"', '"'] else csvFields r)) :
    ∃ s, CsvReader.run { rows := rows } q = .ok s ∧ s.rows = rows := by
  obtain ⟨u, hu⟩ := hq
  have h := run_row r rows []
  unfold plainRow at h
  rw [List.append_nil, ← hu, List.append_assoc, run_append] at h
  rcases hs : CsvReader.run { rows := rows } q with e | s
  · rw [hs] at h
    simp [CsvReader.run] at h
  · refine ⟨s, rfl, ?_⟩
    rw [hs] at h
    simp only [run_append] at h
    have m1 := run_rows_mono hs
    rcases hs2 : s.run u with e | s2
    · rw [hs2] at h; simp [CsvReader.run] at h
    · rw [hs2] at h
      have m2 := run_rows_mono hs2
      simp only [CsvReader.run] at h
      rcases hc : s2.char '\n' with e | s3
      · rw [hc] at h; simp at h
      · rw [hc] at h
        simp only [if_true, Except.ok.injEq] at h
        have := emit_at_end h
        rw [char_rows hc, List.dropLast_concat] at this
        rw [this] at m2
        exact (m2.eq_of_length_le m1.length_le)

theorem readNewlines_rows_append {t : List (List (List Char))} (ht : ∀ r ∈ t, ∀ f ∈ r, '\r' ∉ f) (q : List Char) :
    readNewlines (csvRows t ++ q) = t.flatMap plainRow ++ readNewlines q := by
  induction t with
  | nil => rfl
  | cons r t ih =>
    have h1 : '\r' ∉ (if r = [[]] then ['"', '"'] else csvFields r) := fun h => by
      rcases rowBody_mem h with ⟨f, hf, hc⟩ | h | h
      · exact ht r (by simp) f hf hc
      · exact absurd h (by decide)
      · exact absurd h (by decide)
    simp only [csvRows, List.flatMap_cons]
    unfold csvRow plainRow
    rw [List.append_assoc, List.append_assoc, readNewlines_append h1, List.append_assoc, List.append_assoc]
    congr 1
    simp only [List.cons_append, List.nil_append]
    rw [readNewlines_crlf]
    exact congrArg _ (ih fun r' hr' => ht r' (by simp [hr']))

theorem run_rows_append (t rows : List (List (List Char))) (q : List Char) :
    CsvReader.run { rows := rows } (t.flatMap plainRow ++ q) = CsvReader.run { rows := rows ++ t } q := by
  rw [run_append, run_rows]

/-- A prefix of a table of rows: some rows, and the beginning of the next one. -/
theorem prefix_rows {t : List (List (List Char))} {p : List Char} (h : p <+: csvRows t) :
    p = csvRows t ∨ ∃ k r q, t[k]? = some r ∧ p = csvRows (t.take k) ++ q ∧ q <+: csvRow r ∧ q ≠ csvRow r := by
  induction t generalizing p with
  | nil => exact .inl (by simpa [csvRows] using h)
  | cons r t ih =>
    rw [csvRows, List.flatMap_cons] at h
    rcases prefix_append_cases h with h | ⟨p', rfl, h'⟩
    · by_cases e : p = csvRow r
      · cases t with
        | nil => exact .inl (by simp [csvRows, e])
        | cons r' t =>
          refine .inr ⟨1, r', [], rfl, by simp [csvRows, e], List.nil_prefix, ?_⟩
          simp [csvRow]
      · exact .inr ⟨0, r, p, rfl, by simp [csvRows], h, e⟩
    · rcases ih h' with rfl | ⟨k, r', q, h1, rfl, h3⟩
      · exact .inl (by simp [csvRows])
      · exact .inr ⟨k + 1, r', q, by simpa using h1, by simp [csvRows], h3⟩

theorem readCsv_cut {t : List (List (List Char))} (ht : ∀ r ∈ t, ∀ f ∈ r, '\r' ∉ f) {p : List Char}
    (hp : p <+: csvRows t) :
    ∃ k, k ≤ t.length ∧ (readCsv p = .ok (t.take k) ∨ ∃ r, k < t.length ∧ readCsv p = .ok (t.take k ++ [r])) := by
  rcases prefix_rows hp with rfl | ⟨k', r, q, hk, rfl, hq, hne⟩
  · exact ⟨t.length, le_rfl, .inl (by rw [readCsv_rows ht, List.take_length])⟩
  have hkl : k' < t.length := (List.getElem?_eq_some_iff.1 hk).1
  have hread : readNewlines (csvRows (t.take k') ++ q) = (t.take k').flatMap plainRow ++ readNewlines q :=
    readNewlines_rows_append (fun r hr => ht r (List.mem_of_mem_take hr)) q
  have h1 : '\r' ∉ (if r = [[]] then ['"', '"'] else csvFields r) := fun h => by
    rcases rowBody_mem h with ⟨f, hf, hc⟩ | h | h
    · exact ht r (List.mem_of_getElem? hk) f hf hc
    · exact absurd h (by decide)
    · exact absurd h (by decide)
  unfold csvRow at hq hne
  have key : q <+: (if r = [[]] then ['"', '"'] else csvFields r) →
      ∃ k, k ≤ t.length ∧ (readCsv (csvRows (t.take k') ++ q) = .ok (t.take k) ∨
        ∃ r, k < t.length ∧ readCsv (csvRows (t.take k') ++ q) = .ok (t.take k ++ [r])) := fun hq => by
    have hq1 : readNewlines q = q := by
      have := readNewlines_append (a := q) (fun h => h1 (hq.subset h)) []
      simpa [readNewlines] using this
    obtain ⟨s, hs, hrows⟩ := run_partial_row (rows := t.take k') hq
    refine ⟨k', hkl.le, ?_⟩
    unfold readCsv
    rw [hread, run_rows_append, hq1, List.nil_append, hs]
    simp only
    split
    · exact .inl (by rw [hrows])
    · next hst =>
      split
      · exact .inr ⟨s.row ++ [s.field], hkl, by simp [CsvReader.emit, CsvReader.save, hrows]⟩
      · next hst' =>
        refine .inr ?_
        unfold CsvReader.eol
        cases hss : s.st with
        | startRecord => exact absurd hss hst
        | inQuoted => exact absurd hss hst'
        | eatCrnl => exact ⟨_, hkl, by simp only [CsvReader.emit, hrows]; rfl⟩
        | startField => exact ⟨_, hkl, by simp only [CsvReader.emit, CsvReader.save, hrows]; rfl⟩
        | inField => exact ⟨_, hkl, by simp only [CsvReader.emit, CsvReader.save, hrows]; rfl⟩
        | quoteInQuoted => exact ⟨_, hkl, by simp only [CsvReader.emit, CsvReader.save, hrows]; rfl⟩
  rcases prefix_append_cases hq with hq | ⟨q', rfl, hq'⟩
  · exact key hq
  · have hcase : q' = [] ∨ q' = ['\r'] := by
      match q', hq' with
      | [], _ => exact .inl rfl
      | [c], h => rw [List.cons_prefix_cons] at h; exact .inr (by rw [h.1])
      | [c, c'], h =>
        have := h.eq_of_length rfl
        exact absurd (by rw [this]) hne
      | c :: c' :: c'' :: u, h => have := h.length_le; simp at this
    rcases hcase with rfl | rfl
    · exact key (by rw [List.append_nil])
    · refine ⟨k', hkl.le, .inr ⟨r, hkl, ?_⟩⟩
      have hh : readNewlines ((if r = [[]] then ['"', '"'] else csvFields r) ++ ['\r']) = plainRow r := by
        rw [readNewlines_append h1]
        rfl
      unfold readCsv
      rw [hread, hh, run_rows_append]
      have := run_row r (t.take k') []
      rw [List.append_nil] at this
      rw [List.nil_append, this]
      simp [CsvReader.run]

/-- **C144.** A file for the evaluations that was cut off anywhere can be read, and all rows but the last are the headline and
the first evaluations, as they were written. -/
theorem C144_cut_file (repr : ℚ → List Char) (t : List String × Mat)
    (hn : ∀ n ∈ t.1, '\r' ∉ n.toList) (hr : ∀ r ∈ t.2, ∀ q ∈ r, '\r' ∉ repr q)
    {p : List Char} (hp : p <+: writeCsv ['\n'] repr t) :
    ∃ rows, readCsv p = .ok rows ∧ rows.length ≤ 1 + t.2.length ∧
      rows.dropLast <+: t.1.map String.toList :: t.2.map fun r => r.map repr := by
  unfold writeCsv at hp
  rw [writeNewlines_posix] at hp
  have ht : ∀ r ∈ t.1.map String.toList :: t.2.map (fun r => r.map repr), ∀ f ∈ r, '\r' ∉ f := by
    intro r hr' f hf
    rcases List.mem_cons.1 hr' with rfl | hr'
    · obtain ⟨n, h, rfl⟩ := List.mem_map.1 hf
      exact hn n h
    · obtain ⟨v, hv, rfl⟩ := List.mem_map.1 hr'
      obtain ⟨q, hq, rfl⟩ := List.mem_map.1 hf
      exact hr v hv q hq
  have hl : (t.1.map String.toList :: t.2.map (fun r => r.map repr)).length = 1 + t.2.length := by simp; omega
  obtain ⟨k, hk, h | ⟨r, hk', h⟩⟩ := readCsv_cut ht hp
  · refine ⟨_, h, ?_, (List.dropLast_prefix _).trans (List.take_prefix _ _)⟩
    rw [← hl]
    exact List.length_take_le' _ _
  · refine ⟨_, h, ?_, ?_⟩
    · rw [← hl, List.length_append, List.length_take]
      simp only [List.length_singleton]
      omega
    · rw [List.dropLast_concat]
      exact List.take_prefix _ _

theorem evaluations_written {env : BOEnv} {attrs : Option BayesAttrs} {names : List String} {fa : FileArgs}
    {a : RunArgs} {fuel : Nat} {s : BOState} {t : List String × Mat}
    (h : (runWithFiles env attrs names fa a fuel s).2.2.evaluations = some t) :
    ∃ Y, (runOptimization env a fuel s).1.Y = some Y ∧ saveEvaluations (runOptimization env a fuel s).1.X Y = .ok t := by
  have hm : ∀ (fs : Files) (s' : BOState), (saveModelsIf fa.models names s' fs).1.evaluations = fs.evaluations := by
    intro fs s'
    unfold saveModelsIf
    split
    · split <;> rfl
    · rfl
  have he : ∀ (fs : Files) (s' : BOState), fs.evaluations = none →
      (saveEvaluationsIf fa.evaluations s' fs).1.evaluations = some t →
      ∃ Y, s'.Y = some Y ∧ saveEvaluations s'.X Y = .ok t := by
    intro fs s' h0 h1
    unfold saveEvaluationsIf at h1
    split at h1
    · split at h1
      · rw [h0] at h1; simp at h1
      · next Y hY =>
        split at h1
        · rw [h0] at h1; simp at h1
        · next t' ht' =>
          simp only [Option.some.injEq] at h1
          exact ⟨Y, hY, h1 ▸ ht'⟩
    · rw [h0] at h1; simp at h1
  unfold runWithFiles at h
  rcases hr : runOptimization env a fuel s with ⟨s', r⟩
  rw [hr] at h
  cases r with
  | running => simp at h
  | raised e => simp at h
  | done why =>
    have h : (writeFiles env attrs names fa (a.limits.1, a.eps) s').1.evaluations = some t := by
      simp only at h
      rcases hw : writeFiles env attrs names fa (a.limits.1, a.eps) s' with ⟨fs, e | u⟩ <;> rw [hw] at h <;> exact h
    unfold writeFiles at h
    simp only at h
    split at h
    · next fs e hfs =>
      split at hfs
      · simp only [Prod.mk.injEq] at hfs
        rw [← hfs.1] at h
        simp at h
      · simp at hfs
    · next fs hfs =>
      have h0 : fs.evaluations = none := by
        split at hfs <;> simp only [Prod.mk.injEq] at hfs <;> rw [← hfs.1]
      split at h
      · next fs' e hfs' => exact he fs s' h0 (by rw [hfs']; exact h)
      · next fs' hfs' =>
        rw [hm] at h
        exact he fs s' h0 (by rw [hfs']; exact h)

/-- **C144** (partial: only if the process survives the loop). From the file of a run that was killed while it saved, or
later, the first evaluations can be read, all rows but the last being right. -/
theorem C144_readable_partial (env : BOEnv) (attrs : Option BayesAttrs) (names : List String) (fa : FileArgs)
    (a : RunArgs) (fuel : Nat) (s : BOState) (paths : FilePaths) (pieces : FilePieces)
    (h1 : paths.evaluations ≠ paths.report) (h2 : paths.evaluations ≠ paths.models)
    (repr : ℚ → List Char) (hrepr : ∀ q, '\r' ∉ repr q)
    (hpieces : ∀ t, (pieces.table t).flatten = writeCsv ['\n'] repr t)
    {d d' : DiskState} (hb : d.buf paths.evaluations = [])
    (h : CrashedIn (runActs paths pieces s (runWithFiles env attrs names fa a fuel s)) d d') :
    d'.disk paths.evaluations = d.disk paths.evaluations ∨
      ∃ Y c rows, (runOptimization env a fuel s).1.Y = some Y ∧ d'.disk paths.evaluations = some c ∧
        readCsv c = .ok rows ∧ (rows.dropLast.drop 1) <+: List.zipWith (fun (k : ℕ) (yx : ℚ × Vec) =>
          ((((k : ℚ) + 1) :: yx.1 :: yx.2).map repr)) (List.range Y.length)
            (List.zip Y (runOptimization env a fuel s).1.X) := by
  rcases C144_content_partial paths pieces s _ h1 h2 hb h with h | ⟨t, c, ht, hc, hp⟩
  · exact .inl h
  · right
    obtain ⟨Y, hY, hsave⟩ := evaluations_written ht
    rw [hpieces] at hp
    have hsave' := hsave
    unfold saveEvaluations at hsave
    split at hsave
    case isFalse => simp at hsave
    case isTrue hl =>
    simp only [Except.ok.injEq] at hsave
    obtain ⟨rows, hrows, -, hpre⟩ := C144_cut_file repr t (by
      intro n hn
      rw [← hsave] at hn
      simp only [List.mem_append, List.mem_cons, List.not_mem_nil, or_false, List.mem_map] at hn
      rcases hn with (rfl | rfl) | ⟨k, _, rfl⟩
      · decide
      · decide
      · rw [String.toList_append, List.mem_append, not_or]
        refine ⟨by decide, ?_⟩
        intro h
        have := Nat.isDigit_of_mem_toDigits (b := 10) (by norm_num) (by norm_num) (by simpa using h)
        exact absurd this (by decide)) (fun _ _ q _ => hrepr q) hp
    refine ⟨Y, c, rows, hY, hc, hrows, ?_⟩
    have := hpre.drop 1
    rw [List.drop_one (l := _ :: _), List.tail_cons, ← hsave, List.map_zipWith] at this
    exact this

/-- **C144, negation.** The last row of a file that was cut off can have all its columns and a wrong number: after `0.25` was
cut to `0.2`, the location that is read was never evaluated. -/
theorem C144_wrong_number_counterexample :
    ∃ (t : List String × Mat) (repr : ℚ → List Char) (p : List Char), saveEvaluations [[1 / 4]] [1] = .ok t ∧
      (∀ q, '\r' ∉ repr q) ∧ repr (1 / 4) = "0.25".toList ∧ repr (1 / 5) = "0.2".toList ∧
      p <+: writeCsv ['\n'] repr t ∧
      readCsv p = .ok (t.1.map String.toList :: [[repr 1, repr 1, repr (1 / 5)]]) := by
  refine ⟨_, fun q => if q = 1 / 4 then "0.25".toList else if q = 1 / 5 then "0.2".toList else "1.0".toList,
    "Iteration\tY\tvar_1\r\n1.0\t1.0\t0.2".toList, rfl, ?_, ?_, ?_, ?_, ?_⟩
  · intro q
    simp only
    split
    · decide
    · split <;> decide
  all_goals decide +kernel

/-- Non-vacuity: a run with four evaluations, of which the first eight actions (four calls, and four on the report)
leave nothing in the file for the evaluations. -/
example : ((designSpace exLine none).map fun sp =>
      let s := boInit [[0], [1]] none .none
      let r := runWithFiles (exBO sp) (some {}) ["variance"] { report := true, evaluations := true, models := true }
        { maxIter := some (.fin 2) } 10 s
      (callActs s r.1, r.2.2.evaluations.isSome,
        (runActs ⟨['r'], ['e'], ['m']⟩ ⟨fun _ => [['x'], ['y']], fun _ => [['z']]⟩ s r).drop 4))
    = .ok ([.call [0], .call [1], .call [1/3], .call [1/4]], true,
        [.openW ['r'], .write ['r'] ['x'], .write ['r'] ['y'], .close ['r'],
         .openW ['e'], .write ['e'] ['z'], .close ['e'], .openW ['m'], .write ['m'] ['z'], .close ['m']]) := by
  decide +kernel

/-- Non-vacuity of `C144_exception_counterexample`: the objective raises at the fourth evaluation. -/
example : ((designSpace exLine none).map fun sp =>
      let s := boInit [[0], [1]] none .none
      let env : BOEnv := { exBO sp with obj := some fun k x => if k = 3 then .error .objectiveError else .ok (x.headD 0) }
      let r := runWithFiles env (some {}) ["variance"] { evaluations := true } { maxIter := some (.fin 2) } 10 s
      ((callActs s r.1).length, r.2.1, decide (runActs ⟨['r'], ['e'], ['m']⟩ ⟨fun _ => [], fun _ => []⟩ s r = callActs s r.1)))
    = .ok (4, .raised .objectiveError, true) := by
  decide +kernel

end GPyOpt.Props
