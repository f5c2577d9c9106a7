import Verif.Model.Csv
import Verif.Spec.Csv

/-!
# Property C137: result files can be read
-/

namespace GPyOpt

/-! ## Newlines -/

theorem writeNewlines_posix (t : List Char) : writeNewlines ['\n'] t = t := by
  unfold writeNewlines
  rw [show (fun c : Char => if c = '\n' then ['\n'] else [c]) = fun c => [c] by
    funext c
    split
    · next h => rw [h]
    · rfl]
  simp

theorem readNewlines_other {c : Char} (h : c ≠ '\r') (t : List Char) : readNewlines (c :: t) = c :: readNewlines t := by
  rw [readNewlines.eq_def]
  simp only [h, if_false]

theorem readNewlines_crlf (t : List Char) : readNewlines ('\r' :: '\n' :: t) = '\n' :: readNewlines t := by
  rw [readNewlines.eq_def]
  simp

theorem readNewlines_cr {d : Char} (h : d ≠ '\n') (t : List Char) :
    readNewlines ('\r' :: d :: t) = '\n' :: readNewlines (d :: t) := by
  rw [readNewlines.eq_def]
  simp only [if_true, h, if_false]

theorem readNewlines_append {a : List Char} (ha : '\r' ∉ a) (b : List Char) :
    readNewlines (a ++ b) = a ++ readNewlines b := by
  induction a with
  | nil => rfl
  | cons c a ih =>
    simp only [List.mem_cons, not_or] at ha
    rw [List.cons_append, readNewlines_other (Ne.symm ha.1), ih ha.2, List.cons_append]

/-- A row after the translation of newlines. -/
def plainRow (r : List (List Char)) : List Char := (if r = [[]] then ['"', '"'] else csvFields r) ++ ['\n']

theorem csvEscape_mem {f : List Char} {c : Char} (h : c ∈ csvEscape f) : c ∈ f := by
  unfold csvEscape at h
  simp only [List.mem_flatMap] at h
  obtain ⟨d, hd, hc⟩ := h
  split at hc
  · next e =>
    subst e
    simp only [List.mem_cons, List.not_mem_nil, or_false, or_self] at hc
    rwa [hc]
  · rw [List.mem_singleton.1 hc]
    exact hd

theorem csvField_mem {f : List Char} {c : Char} (h : c ∈ csvField f) : c ∈ f ∨ c = '"' := by
  unfold csvField at h
  split at h
  · simp only [List.mem_cons, List.mem_append, List.not_mem_nil, or_false] at h
    rcases h with h | h | h
    · exact .inr h
    · exact .inl (csvEscape_mem h)
    · exact .inr h
  · exact .inl h

theorem csvFields_mem {r : List (List Char)} {c : Char} (h : c ∈ csvFields r) :
    (∃ f ∈ r, c ∈ f) ∨ c = '"' ∨ c = '\t' := by
  induction r with
  | nil => simp [csvFields] at h
  | cons f r ih =>
    have key : c ∈ csvField f → (∃ g ∈ f :: r, c ∈ g) ∨ c = '"' ∨ c = '\t' := fun h => by
      rcases csvField_mem h with h | h
      · exact .inl ⟨f, by simp, h⟩
      · exact .inr (.inl h)
    cases r with
    | nil => exact key h
    | cons g r =>
      unfold csvFields at h
      rw [List.mem_append, List.mem_cons] at h
      rcases h with h | h | h
      · exact key h
      · exact .inr (.inr h)
      · rcases ih h with ⟨x, hx, hc⟩ | h
        · exact .inl ⟨x, by simp [List.mem_cons.1 hx], hc⟩
        · exact .inr h

/-- The body of a row has no line terminator of its own. -/
theorem rowBody_mem {r : List (List Char)} {c : Char} (h : c ∈ (if r = [[]] then ['"', '"'] else csvFields r)) :
    (∃ f ∈ r, c ∈ f) ∨ c = '"' ∨ c = '\t' := by
  split at h
  · simp only [List.mem_cons, List.not_mem_nil, or_false, or_self] at h
    exact .inr (.inl h)
  · exact csvFields_mem h

theorem readNewlines_rows {t : List (List (List Char))} (ht : ∀ r ∈ t, ∀ f ∈ r, '\r' ∉ f) :
    readNewlines (csvRows t) = t.flatMap plainRow := by
  induction t with
  | nil => rfl
  | cons r t ih =>
    have h1 : '\r' ∉ (if r = [[]] then ['"', '"'] else csvFields r) := fun h => by
      rcases rowBody_mem h with ⟨f, hf, hc⟩ | h | h
      · exact ht r (by simp) f hf hc
      · exact absurd h (by decide)
      · exact absurd h (by decide)
    simp only [csvRows, List.flatMap_cons]
    unfold csvRow plainRow
    rw [List.append_assoc, readNewlines_append h1, List.append_assoc]
    congr 1
    simp only [List.cons_append, List.nil_append]
    rw [readNewlines_crlf]
    exact congrArg _ (ih fun r' hr' => ht r' (by simp [hr']))

/-! ## One field -/

theorem run_inField {f : List Char} (hf : f.any csvSpecial = false) (s : CsvReader) (hs : s.st = .inField)
    (rest : List Char) :
    s.run (f ++ rest) = CsvReader.run { s with field := s.field ++ f } rest := by
  induction f generalizing s with
  | nil => simp
  | cons c f ih =>
    simp only [List.any_cons, Bool.or_eq_false_iff] at hf
    have hc := hf.1
    simp only [csvSpecial, Bool.or_eq_false_iff, beq_eq_false_iff_ne, ne_eq] at hc
    obtain ⟨⟨⟨h1, h2⟩, h3⟩, h4⟩ := hc
    rw [List.cons_append, CsvReader.run]
    unfold CsvReader.char
    rw [hs]
    simp only [h1, h3, h4, or_self, if_false]
    rw [ih hf.2 _ rfl]
    simp only [CsvReader.add, List.append_assoc, List.singleton_append]

theorem run_inQuoted (f : List Char) (s : CsvReader) (hs : s.st = .inQuoted) (rest : List Char) :
    s.run (csvEscape f ++ '"' :: rest) =
      CsvReader.run { s with st := .quoteInQuoted, field := s.field ++ f } rest := by
  induction f generalizing s with
  | nil =>
    simp only [csvEscape, List.flatMap_nil, List.nil_append, List.append_nil]
    rw [CsvReader.run]
    unfold CsvReader.char
    rw [hs]
    simp
  | cons c f ih =>
    unfold csvEscape at *
    rw [List.flatMap_cons]
    by_cases hc : c = '"'
    · subst hc
      simp only [if_true, List.cons_append, List.nil_append]
      rw [CsvReader.run]
      unfold CsvReader.char
      rw [hs]
      simp only [if_true]
      rw [if_neg (by decide), CsvReader.run]
      unfold CsvReader.char
      simp only [if_true]
      rw [if_neg (by decide), ih _ rfl]
      simp only [CsvReader.add, List.append_assoc, List.singleton_append]
    · simp only [hc, if_false, List.cons_append, List.nil_append]
      rw [CsvReader.run]
      unfold CsvReader.char
      rw [hs]
      simp only [hc, if_false]
      split
      · unfold CsvReader.eol
        simp only [CsvReader.add]
        rw [ih _ rfl]
        simp only [List.append_assoc, List.singleton_append]
      · rw [ih _ rfl]
        simp only [CsvReader.add, List.append_assoc, List.singleton_append]

/-- The reader is at the beginning of a field. -/
def AtField (s : CsvReader) : Prop := (s.st = .startRecord ∨ s.st = .startField) ∧ s.field = []

theorem char_at_field {s : CsvReader} (h : AtField s) {c : Char} (hc : c ≠ '\n') (hc' : c ≠ '\r') :
    s.char c = .ok (s.startField c) := by
  unfold CsvReader.char
  rcases h.1 with h | h <;> rw [h]
  simp [hc, hc']

/-- A field that is followed by a tabulator. -/
theorem run_field_tab {s : CsvReader} (h : AtField s) (f rest : List Char) :
    s.run (csvField f ++ '\t' :: rest) =
      CsvReader.run { s with st := .startField, field := [], row := s.row ++ [f] } rest := by
  unfold csvField
  split
  · next hq =>
    rw [List.cons_append, CsvReader.run, char_at_field h (by decide) (by decide)]
    simp only
    rw [if_neg (by decide), List.append_assoc, List.singleton_append, run_inQuoted _ _ (by simp [CsvReader.startField]),
      CsvReader.run]
    unfold CsvReader.char
    simp [CsvReader.startField, CsvReader.save, h.2]
  · next hq =>
    cases f with
    | nil =>
      rw [List.nil_append, CsvReader.run, char_at_field h (by decide) (by decide)]
      simp [CsvReader.startField, CsvReader.save, h.2]
    | cons c f =>
      have hq' : (c :: f).any csvSpecial = false := by simpa using hq
      simp only [List.any_cons, Bool.or_eq_false_iff] at hq'
      have hc := hq'.1
      simp only [csvSpecial, Bool.or_eq_false_iff, beq_eq_false_iff_ne, ne_eq] at hc
      obtain ⟨⟨⟨h1, h2⟩, h3⟩, h4⟩ := hc
      rw [List.cons_append, CsvReader.run, char_at_field h h4 h3]
      simp only [h4, if_false]
      rw [run_inField hq'.2 _ (by simp [CsvReader.startField, h1, h2, h3, h4, CsvReader.add]), CsvReader.run]
      unfold CsvReader.char
      simp [CsvReader.startField, CsvReader.save, CsvReader.add, h.2, h1, h2, h3, h4]

/-- A field at the end of a row, unless the row consists of an empty field. -/
theorem run_field_end {s : CsvReader} (h : AtField s) (f rest : List Char) (hf : f = [] → s.st = .startField) :
    s.run (csvField f ++ '\n' :: rest) = CsvReader.run { rows := s.rows ++ [s.row ++ [f]] } rest := by
  unfold csvField
  split
  · next hq =>
    rw [List.cons_append, CsvReader.run, char_at_field h (by decide) (by decide)]
    simp only
    rw [if_neg (by decide), List.append_assoc, List.singleton_append, run_inQuoted _ _ (by simp [CsvReader.startField]),
      CsvReader.run]
    unfold CsvReader.char
    simp [CsvReader.startField, CsvReader.save, CsvReader.eol, CsvReader.emit, h.2]
  · next hq =>
    cases f with
    | nil =>
      rw [List.nil_append, CsvReader.run]
      unfold CsvReader.char
      rw [hf rfl]
      simp [CsvReader.startField, CsvReader.save, CsvReader.eol, CsvReader.emit, h.2]
    | cons c f =>
      have hq' : (c :: f).any csvSpecial = false := by simpa using hq
      simp only [List.any_cons, Bool.or_eq_false_iff] at hq'
      have hc := hq'.1
      simp only [csvSpecial, Bool.or_eq_false_iff, beq_eq_false_iff_ne, ne_eq] at hc
      obtain ⟨⟨⟨h1, h2⟩, h3⟩, h4⟩ := hc
      rw [List.cons_append, CsvReader.run, char_at_field h h4 h3]
      simp only [h4, if_false]
      rw [run_inField hq'.2 _ (by simp [CsvReader.startField, h1, h2, h3, h4, CsvReader.add]), CsvReader.run]
      unfold CsvReader.char
      simp [CsvReader.startField, CsvReader.save, CsvReader.add, CsvReader.eol, CsvReader.emit, h.2, h1, h2, h3, h4]

/-! ## Rows and tables -/

theorem run_fields (r : List (List Char)) (hr : r ≠ []) {s : CsvReader} (h : AtField s)
    (h1 : r = [[]] → s.st = .startField) (rest : List Char) :
    s.run (csvFields r ++ '\n' :: rest) = CsvReader.run { rows := s.rows ++ [s.row ++ r] } rest := by
  induction r generalizing s with
  | nil => exact absurd rfl hr
  | cons f r ih =>
    cases r with
    | nil => exact run_field_end h f rest fun hf => h1 (by rw [hf])
    | cons g r =>
      rw [csvFields, List.append_assoc, List.cons_append, run_field_tab h, ih (by simp) ⟨.inr rfl, rfl⟩ fun _ => rfl]
      simp

theorem run_row (r : List (List Char)) (rows : List (List (List Char))) (rest : List Char) :
    CsvReader.run { rows := rows } (plainRow r ++ rest) = CsvReader.run { rows := rows ++ [r] } rest := by
  unfold plainRow
  rw [List.append_assoc, List.singleton_append]
  split
  · next h =>
    subst h
    simp [CsvReader.run, CsvReader.char, CsvReader.startField, CsvReader.save, CsvReader.eol, CsvReader.emit]
  · next h =>
    by_cases h0 : r = []
    · subst h0
      simp [csvFields, CsvReader.run, CsvReader.char, CsvReader.eol, CsvReader.emit]
    · rw [run_fields r h0 ⟨.inl rfl, rfl⟩ fun e => absurd e h]
      simp

theorem run_rows (t rows : List (List (List Char))) :
    CsvReader.run { rows := rows } (t.flatMap plainRow) = .ok { rows := rows ++ t } := by
  induction t generalizing rows with
  | nil => simp [CsvReader.run]
  | cons r t ih =>
    rw [List.flatMap_cons, run_row, ih]
    simp

/-- A table of texts is read as it was written. -/
theorem readCsv_rows {t : List (List (List Char))} (ht : ∀ r ∈ t, ∀ f ∈ r, '\r' ∉ f) :
    readCsv (csvRows t) = .ok t := by
  unfold readCsv
  rw [readNewlines_rows ht, run_rows]
  simp

/-! ## Windows -/

theorem writeNewlines_no {a : List Char} (ha : '\n' ∉ a) (sep : List Char) : writeNewlines sep a = a := by
  induction a with
  | nil => rfl
  | cons c a ih =>
    simp only [List.mem_cons, not_or] at ha
    unfold writeNewlines at *
    rw [List.flatMap_cons, if_neg (Ne.symm ha.1), ih ha.2, List.singleton_append]

theorem windows_rows {t : List (List (List Char))} (ht : ∀ r ∈ t, ∀ f ∈ r, '\r' ∉ f ∧ '\n' ∉ f) :
    readNewlines (writeNewlines ['\r', '\n'] (csvRows t)) = (t.flatMap fun r => [r, []]).flatMap plainRow := by
  induction t with
  | nil => rfl
  | cons r t ih =>
    have h1 : ∀ c, (c = '\r' ∨ c = '\n') → c ∉ (if r = [[]] then ['"', '"'] else csvFields r) := fun c hc h => by
      rcases rowBody_mem h with ⟨f, hf, hcf⟩ | h | h
      · rcases hc with rfl | rfl
        · exact (ht r (by simp) f hf).1 hcf
        · exact (ht r (by simp) f hf).2 hcf
      · subst h
        exact absurd hc (by decide)
      · subst h
        exact absurd hc (by decide)
    have ih := ih fun r' hr' => ht r' (by simp [hr'])
    have hr := h1 '\r' (.inl rfl)
    have hn := writeNewlines_no (h1 '\n' (.inr rfl)) ['\r', '\n']
    simp only [csvRows, List.flatMap_cons, List.flatMap_append, List.flatMap_nil, List.append_nil] at ih ⊢
    unfold csvRow plainRow at ih ⊢
    set body := if r = [[]] then ['"', '"'] else csvFields r
    rw [show ∀ a b : List Char, writeNewlines ['\r', '\n'] (a ++ b) =
      writeNewlines ['\r', '\n'] a ++ writeNewlines ['\r', '\n'] b from fun a b => by simp [writeNewlines],
      show ∀ a b : List Char, writeNewlines ['\r', '\n'] (a ++ b) =
      writeNewlines ['\r', '\n'] a ++ writeNewlines ['\r', '\n'] b from fun a b => by simp [writeNewlines], hn,
      List.append_assoc, readNewlines_append hr]
    simp only [List.append_assoc]
    congr 1
    have h2 : writeNewlines ['\r', '\n'] ['\r', '\n'] = ['\r', '\r', '\n'] := by decide
    rw [h2]
    simp only [List.cons_append, List.nil_append, csvFields]
    rw [readNewlines_cr (by decide), readNewlines_crlf, ih, if_neg (by simp)]
    rfl

end GPyOpt

namespace GPyOpt.Props

open GPyOpt Spec

/-- **C137** (partial: where lines end with `\n`). Python's csv reader gives the headline and the texts of the numbers in the
rows as they were written, whatever characters the names contain except carriage returns, and however the numbers are
formatted. -/
theorem C137_read_back_partial (repr : ℚ → List Char) (t : List String × Mat)
    (hn : ∀ n ∈ t.1, '\r' ∉ n.toList) (hr : ∀ r ∈ t.2, ∀ q ∈ r, '\r' ∉ repr q) :
    readCsv (writeCsv ['\n'] repr t) = .ok (t.1.map String.toList :: t.2.map fun r => r.map repr) := by
  unfold writeCsv
  rw [writeNewlines_posix]
  apply readCsv_rows
  intro r hr' f hf
  rcases List.mem_cons.1 hr' with rfl | hr'
  · obtain ⟨n, h, rfl⟩ := List.mem_map.1 hf
    exact hn n h
  · obtain ⟨v, hv, rfl⟩ := List.mem_map.1 hr'
    obtain ⟨q, hq, rfl⟩ := List.mem_map.1 hf
    exact hr v hv q hq

/-- **C137** (partial: where lines end with `\n`). The file with the evaluations holds the evaluations: its rows, read by
Python's csv reader and parsed by the inverse of the number format, are the numbers from 1 on, the outputs and the
locations. -/
theorem C137_evaluations_partial (repr : ℚ → List Char) (parse : List Char → Option ℚ) (X : Mat) (Y : Vec)
    {t : List String × Mat} (ht : saveEvaluations X Y = .ok t)
    (hrepr : ∀ r ∈ t.2, ∀ q ∈ r, '\r' ∉ repr q ∧ parse (repr q) = some q) :
    ∃ rows, readCsv (writeCsv ['\n'] repr t) = .ok rows ∧ HoldsEvaluations parse rows X Y := by
  have ht' := ht
  unfold saveEvaluations at ht
  split at ht
  case isFalse => exact absurd ht (by simp)
  case isTrue hl =>
  simp only [Except.ok.injEq] at ht
  refine ⟨_, C137_read_back_partial repr t ?_ fun r hr q hq => (hrepr r hr q hq).1, ?_⟩
  · intro n hn
    rw [← ht] at hn
    simp only [List.mem_append, List.mem_cons, List.not_mem_nil, or_false, List.mem_map] at hn
    rcases hn with (rfl | rfl) | ⟨k, _, rfl⟩
    · decide
    · decide
    · rw [String.toList_append, List.mem_append, not_or]
      refine ⟨by decide, ?_⟩
      intro h
      have := Nat.isDigit_of_mem_toDigits (b := 10) (by norm_num) (by norm_num) (by simpa using h)
      exact absurd this (by decide)
  · refine ⟨_, _, rfl, ?_, ?_, ?_, ?_⟩
    · rw [← ht]
      simp
      omega
    · rw [← ht]
      simp [hl]
    · rw [← ht]
      simp [hl]
    · intro i x y hx hy
      have hrow : t.2[i]? = some (((i : ℚ) + 1) :: y :: x) := by
        rw [← ht]
        have hi : i < Y.length := (List.getElem?_eq_some_iff.1 hy).1
        have hz : (List.zip Y X)[i]? = some (y, x) := by rw [List.getElem?_zip_eq_some]; exact ⟨hy, hx⟩
        rw [List.getElem?_zipWith, List.getElem?_range hi, hz]
      refine ⟨(((i : ℚ) + 1) :: y :: x).map repr, by rw [List.getElem?_map, hrow]; rfl, ?_⟩
      unfold RowNumbers
      rw [List.forall₂_map_left_iff]
      exact List.forall₂_same.2 fun q hq => (hrepr _ (List.mem_of_getElem? hrow) q hq).2

/-- **C137, negation.** Where lines end with `\r\n` (Windows), the carriage return of the csv writer is kept before that of
the text file: the reader finds an empty row after every row, for every table whose fields have no line breaks. -/
theorem C137_windows_counterexample (repr : ℚ → List Char) (t : List String × Mat)
    (hn : ∀ n ∈ t.1, '\r' ∉ n.toList ∧ '\n' ∉ n.toList)
    (hr : ∀ r ∈ t.2, ∀ q ∈ r, '\r' ∉ repr q ∧ '\n' ∉ repr q) :
    readCsv (writeCsv ['\r', '\n'] repr t) =
        .ok ((t.1.map String.toList :: t.2.map fun r => r.map repr).flatMap fun r => [r, []]) ∧
      readCsv (writeCsv ['\r', '\n'] repr t) ≠ .ok (t.1.map String.toList :: t.2.map fun r => r.map repr) := by
  have h : readCsv (writeCsv ['\r', '\n'] repr t) =
      .ok ((t.1.map String.toList :: t.2.map fun r => r.map repr).flatMap fun r => [r, []]) := by
    unfold readCsv writeCsv
    rw [windows_rows, run_rows]
    · simp
    · intro r hr' f hf
      rcases List.mem_cons.1 hr' with rfl | hr'
      · obtain ⟨n, h, rfl⟩ := List.mem_map.1 hf
        exact hn n h
      · obtain ⟨v, hv, rfl⟩ := List.mem_map.1 hr'
        obtain ⟨q, hq, rfl⟩ := List.mem_map.1 hf
        exact hr v hv q hq
  refine ⟨h, ?_⟩
  rw [h]
  intro e
  have e := congrArg List.length (Except.ok.inj e)
  have : ∀ l : List (List (List Char)), (l.flatMap fun r => [r, []]).length = 2 * l.length := by
    intro l
    induction l with
    | nil => rfl
    | cons a l ih => rw [List.flatMap_cons, List.length_append, ih]; simp; omega
  rw [this] at e
  simp at e

/-- Non-vacuity: a table with two evaluations, written as Python writes it. -/
def csvExampleRepr (q : ℚ) : List Char :=
  if q = 1 then "1.0".toList else if q = 2 then "2.0".toList else if q = 1 / 2 then "0.5".toList else "-3.25".toList

def csvExampleParse (t : List Char) : Option ℚ :=
  if t = "1.0".toList then some 1 else if t = "2.0".toList then some 2
  else if t = "0.5".toList then some (1 / 2) else if t = "-3.25".toList then some (-13 / 4) else none

example : ∃ t, saveEvaluations [[1 / 2], [1]] [-13 / 4, 2] = .ok t ∧
    writeCsv ['\n'] csvExampleRepr t = "Iteration\tY\tvar_1\r\n1.0\t-3.25\t0.5\r\n2.0\t2.0\t1.0\r\n".toList ∧
    ∀ r ∈ t.2, ∀ q ∈ r, '\r' ∉ csvExampleRepr q ∧ csvExampleParse (csvExampleRepr q) = some q :=
  ⟨_, rfl, by decide +kernel, by decide +kernel⟩

/-- Non-vacuity: names with tabulators, quotes and line breaks are quoted and read as they were. -/
example : readCsv (writeCsv ['\n'] csvExampleRepr (["a\tb", "say \"x\"\n", ""], [[1, 2, 1]])) =
    .ok (["a\tb".toList, "say \"x\"\n".toList, []] :: [["1.0".toList, "2.0".toList, "1.0".toList]]) :=
  C137_read_back_partial _ _ (by decide) (by decide +kernel)

end GPyOpt.Props
