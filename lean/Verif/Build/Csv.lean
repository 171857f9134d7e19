/-
C78: CSV texts.
The build profile is written and read with the `csv` 1.3.1 and `csv-core` 0.1.11 crates with their default settings
(cmakeperf/src/measure/main.rs:35,92,117; cmakeperf/src/output.rs:16,29-35). Their writer and the transitions of their reader
are modelled from their source, on characters instead of bytes (all characters they distinguish are ASCII, except the
byte order mark).
Simplification: the reader's state after a carriage return is merged with the one at the start of a record, as both
discard a line feed.
-/
import Verif.Build.Database

set_option autoImplicit false
set_option linter.unusedVariables false
set_option linter.unusedSimpArgs false

namespace Verif.Build.Csv

abbrev Text := List Char

/-! ## Model: writer -/

/-- `requires_quotes`: delimiter, quote, and both line endings -/
def special (c : Char) : Bool := c == ',' || c == '"' || c == '\r' || c == '\n'

/-- csv-core `quote`: quotes are doubled -/
def esc : Text → Text
  | [] => []
  | c :: s => if c = '"' then '"' :: '"' :: esc s else c :: esc s

/-- csv-core `Writer::field`, with `QuoteStyle::Necessary` -/
def writeField (f : Text) : Text := if f.any special then '"' :: esc f ++ ['"'] else f

/-- fields with delimiters between them -/
def writeFields : List Text → Text
  | [] => []
  | [f] => writeField f
  | f :: fs => writeField f ++ ',' :: writeFields fs

/-- csv-core `Writer::terminator`: a record without bytes is written as an empty quotation -/
def writeRow (fs : List Text) : Text := (if writeFields fs = [] then ['"', '"'] else writeFields fs) ++ ['\n']

/-- a sequence of records -/
def writeRows (rows : List (List Text)) : Text := rows.flatMap writeRow

/-! ## Model: reader -/

/-- States of csv-core's reader -/
inductive St where
  | startRecord | startField | inField | inQuoted | inDouble
  deriving DecidableEq

/-- What is done with a character -/
inductive Act where
  | discard | copy | endField | endRow
  deriving DecidableEq

/-- `Terminator::CRLF` as seen by the reader -/
def term (c : Char) : Bool := c == '\r' || c == '\n'

/-- csv-core `transition_nfa` with its empty transitions followed -/
def step : St → Char → St × Act
  | .startRecord, c =>
    if term c then (.startRecord, .discard)
    else if c = '"' then (.inQuoted, .discard)
    else if c = ',' then (.startField, .endField)
    else (.inField, .copy)
  | .startField, c =>
    if c = '"' then (.inQuoted, .discard)
    else if c = ',' then (.startField, .endField)
    else if term c then (.startRecord, .endRow)
    else (.inField, .copy)
  | .inField, c =>
    if c = ',' then (.startField, .endField)
    else if term c then (.startRecord, .endRow)
    else (.inField, .copy)
  | .inQuoted, c => if c = '"' then (.inDouble, .discard) else (.inQuoted, .copy)
  | .inDouble, c =>
    if c = '"' then (.inQuoted, .copy)
    else if c = ',' then (.startField, .endField)
    else if term c then (.startRecord, .endRow)
    else (.inField, .copy)

/-- The reader: state, current field, previous fields of the current record, and what remains. The end of the text ends a
record that was begun (`transition_final_nfa`). -/
def run : St → Text → List Text → Text → List (List Text)
  | st, f, row, [] => if st = .startRecord then [] else [row ++ [f]]
  | st, f, row, c :: s =>
    match step st c with
    | (st', .discard) => run st' f row s
    | (st', .copy) => run st' (f ++ [c]) row s
    | (st', .endField) => run st' [] (row ++ [f]) s
    | (st', .endRow) => (row ++ [f]) :: run st' [] [] s

/-- csv-core `strip_utf8_bom` -/
def stripBom : Text → Text
  | [] => []
  | c :: s => if c = '\uFEFF' then s else c :: s

/-- records of a text -/
def readRows (s : Text) : List (List Text) := run .startRecord [] [] (stripBom s)

/-! ## Specification -/

/-- No delimiter and no line ending. -/
def Bare (s : Text) : Prop := ∀ c ∈ s, c ≠ ',' ∧ c ≠ '\r' ∧ c ≠ '\n'

/-- `Field f s`: the text `s` spells the field `f`. -/
inductive Field : Text → Text → Prop where
  | plain (f : Text) : Bare f → f.head? ≠ some '"' → Field f f
  | quoted (q tail : Text) : Bare tail → tail.head? ≠ some '"' → Field (q ++ tail) ('"' :: esc q ++ '"' :: tail)

/-- `Row fs s`: the text `s` spells the record with fields `fs`. -/
inductive Row : List Text → Text → Prop where
  | one (f s : Text) : Field f s → Row [f] s
  | more (f s : Text) (fs : List Text) (s' : Text) : Field f s → Row fs s' → Row (f :: fs) (s ++ ',' :: s')

/-- A record whose last field is a quotation that is not closed. -/
inductive OpenRow : List Text → Text → Prop where
  | one (q : Text) : OpenRow [q] ('"' :: esc q)
  | more (f s : Text) (fs : List Text) (s' : Text) : Field f s → OpenRow fs s' → OpenRow (f :: fs) (s ++ ',' :: s')

/-- `Lines rows s`: the text `s` consists of the records `rows`, separated by line endings; blank lines do not count, and the
last record may lack its line ending or end in an open quotation. -/
inductive Lines : List (List Text) → Text → Prop where
  | nil : Lines [] []
  | blank (c : Char) (rows : List (List Text)) (s : Text) : term c = true → Lines rows s → Lines rows (c :: s)
  | row (fs : List Text) (s : Text) (c : Char) (rows : List (List Text)) (rest : Text) : Row fs s → s ≠ [] → term c = true →
      Lines rows rest → Lines (fs :: rows) (s ++ c :: rest)
  | last (fs : List Text) (s : Text) : Row fs s → s ≠ [] → Lines [fs] s
  | cut (fs : List Text) (s : Text) : OpenRow fs s → Lines [fs] s

/-! ## Reading what the grammar describes -/

theorem esc_append (a b : Text) : esc (a ++ b) = esc a ++ esc b := by
  induction a with
  | nil => rfl
  | cons c a ih => simp only [List.cons_append, esc]; split <;> simp [ih]

theorem run_esc (q : Text) : ∀ (f : Text) (row : List Text) (s : Text), run .inQuoted f row (esc q ++ s) = run .inQuoted (f ++ q) row s := by
  induction q with
  | nil => intro f row s; simp [esc]
  | cons c q ih =>
    intro f row s
    simp only [esc]
    split
    · rename_i h; subst h
      simp only [List.cons_append, run, step, if_true]
      rw [ih]; simp
    · rename_i h
      simp only [List.cons_append, run, step, if_neg h]
      rw [ih]; simp

theorem bare_cons {c : Char} {s : Text} (h : Bare (c :: s)) : c ≠ ',' ∧ term c = false ∧ Bare s := by
  obtain ⟨h1, h2, h3⟩ := h c (by simp)
  exact ⟨h1, by simp [term, h2, h3], fun x hx => h x (by simp [hx])⟩

theorem run_bare (b : Text) : Bare b → ∀ (f : Text) (row : List Text) (s : Text),
    run .inField f row (b ++ s) = run .inField (f ++ b) row s := by
  induction b with
  | nil => intro _ f row s; simp
  | cons c b ih =>
    intro h f row s
    obtain ⟨h1, h2, h3⟩ := bare_cons h
    simp only [List.cons_append, run, step, if_neg h1, h2, Bool.false_eq_true, if_false]
    rw [ih h3]; simp

/-- What may follow a field. -/
def Ends (s : Text) : Prop := ∀ c r, s = c :: r → c = ',' ∨ term c = true

theorem ends_same (s : Text) (h : Ends s) (f : Text) (row : List Text) : run .startField f row s = run .inField f row s ∧
    run .inDouble f row s = run .inField f row s := by
  cases s with
  | nil => simp [run]
  | cons c s =>
    have hq : c ≠ '"' := by
      rcases h c s rfl with h | h
      · rw [h]; decide
      · intro e; rw [e] at h; revert h; decide
    simp [run, step, hq]

theorem run_field {f s : Text} (h : Field f s) (row : List Text) (rest : Text) (he : Ends rest) :
    run .startField [] row (s ++ rest) = run .inField f row rest := by
  cases h with
  | plain _ hb hq =>
    cases f with
    | nil => rw [List.nil_append]; exact (ends_same rest he [] row).1
    | cons c f =>
      obtain ⟨h1, h2, h3⟩ := bare_cons hb
      have hc : c ≠ '"' := by simpa using hq
      simp only [List.cons_append, run, step, if_neg h1, if_neg hc, h2, Bool.false_eq_true, if_false]
      rw [run_bare f h3]; rfl
  | quoted q tail hb hq =>
    simp only [List.cons_append, List.append_assoc, run, step, if_true]
    rw [run_esc, List.nil_append]
    simp only [List.cons_append, run, step, if_true]
    cases tail with
    | nil => rw [List.nil_append, List.append_nil]; exact (ends_same rest he q row).2
    | cons c tail =>
      obtain ⟨h1, h2, h3⟩ := bare_cons hb
      have hc : c ≠ '"' := by simpa using hq
      simp only [List.cons_append, run, step, if_neg h1, if_neg hc, h2, Bool.false_eq_true, if_false]
      rw [run_bare tail h3]; simp

theorem ends_comma (s : Text) : Ends (',' :: s) := by
  intro c r h; simp only [List.cons.injEq] at h; exact .inl h.1.symm

theorem ends_term {c : Char} (h : term c = true) (s : Text) : Ends (c :: s) := by
  intro c' r e; simp only [List.cons.injEq] at e; rw [← e.1]; exact .inr h

theorem ends_nil : Ends [] := by intro c r h; cases h

theorem run_row {fs : List Text} {s : Text} (h : Row fs s) : ∀ (row : List Text) (rest : Text), Ends rest →
    (rest = [] ∨ ∃ c r, rest = c :: r ∧ term c = true) →
    run .startField [] row (s ++ rest) = (row ++ fs) :: run .startRecord [] [] rest := by
  induction h with
  | one f s hf =>
    intro row rest he hr
    rw [run_field hf row rest he]
    rcases hr with rfl | ⟨c, r, rfl, hc⟩
    · simp [run]
    · have hcomma : c ≠ ',' := by rintro rfl; revert hc; decide
      simp [run, step, hcomma, hc]
  | more f s fs s' hf _ ih =>
    intro row rest he hr
    rw [List.append_assoc, List.cons_append, run_field hf row _ (ends_comma _)]
    simp only [run, step, if_true]
    rw [ih (row ++ [f]) rest he hr]; simp

theorem run_open {fs : List Text} {s : Text} (h : OpenRow fs s) : ∀ (row : List Text),
    run .startField [] row s = [row ++ fs] := by
  induction h with
  | one q =>
    intro row
    simp only [run, step, if_true]
    have := run_esc q [] row []
    rw [List.append_nil] at this
    rw [this]; simp [run]
  | more f s fs s' hf _ ih =>
    intro row
    rw [run_field hf row _ (ends_comma _)]
    simp only [run, step, if_true]
    rw [ih]; simp

theorem field_head {f s : Text} (h : Field f s) (rest : Text) : ∀ c r, s ++ ',' :: rest = c :: r → term c = false := by
  intro c r e
  cases h with
  | plain _ hb hq =>
    cases f with
    | nil => simp only [List.nil_append, List.cons.injEq] at e; rw [← e.1]; decide
    | cons a f => simp only [List.cons_append, List.cons.injEq] at e; rw [← e.1]; exact (bare_cons hb).2.1
  | quoted q tail hb hq => simp only [List.cons_append, List.cons.injEq] at e; rw [← e.1]; decide

theorem row_head {fs : List Text} {s : Text} (h : Row fs s) : ∀ c r, s = c :: r → term c = false := by
  cases h with
  | one f s hf =>
    intro c r e
    refine field_head hf [] c (r ++ ',' :: []) ?_
    rw [e]; rfl
  | more f s fs s' hf _ => exact fun c r e => field_head hf s' c r e

theorem openRow_head {fs : List Text} {s : Text} (h : OpenRow fs s) : ∃ c r, s = c :: r ∧ term c = false := by
  cases h with
  | one q => exact ⟨'"', esc q, rfl, by decide⟩
  | more f s fs s' hf _ =>
    cases hs : s ++ ',' :: s' with
    | nil => simp at hs
    | cons c r => exact ⟨c, r, rfl, field_head hf s' c r hs⟩

theorem run_start {c : Char} {s : Text} (h : term c = false) (f : Text) (row : List Text) :
    run .startRecord f row (c :: s) = run .startField f row (c :: s) := by
  simp only [run, step, h, Bool.false_eq_true, if_false]

/-- Texts are read as the grammar says. -/
theorem read_lines {rows : List (List Text)} {s : Text} (h : Lines rows s) : run .startRecord [] [] s = rows := by
  induction h with
  | nil => rfl
  | blank c rows s hc _ ih => simp only [run, step, hc, if_true]; exact ih
  | row fs s c rows rest hr hne hc _ ih =>
    cases hs : s with
    | nil => exact absurd hs hne
    | cons a r =>
      rw [List.cons_append, run_start (row_head hr a r hs), ← List.cons_append, ← hs]
      rw [run_row hr [] _ (ends_term hc rest) (.inr ⟨c, rest, rfl, hc⟩)]
      simp only [run, step, hc, if_true, ih, List.nil_append]
  | last fs s hr hne =>
    cases hs : s with
    | nil => exact absurd hs hne
    | cons a r =>
      rw [run_start (row_head hr a r hs), ← hs]
      have := run_row hr [] [] ends_nil (.inl rfl)
      rw [List.append_nil] at this
      rw [this]; rfl
  | cut fs s ho =>
    obtain ⟨a, r, hs, ha⟩ := openRow_head ho
    rw [hs, run_start ha, ← hs, run_open ho]; rfl

/-! ## Every text is described by the grammar -/

/-- Fields followed by delimiters. -/
inductive Pre : List Text → Text → Prop where
  | nil : Pre [] []
  | snoc (row : List Text) (u f s : Text) : Pre row u → Field f s → Pre (row ++ [f]) (u ++ s ++ [','])

theorem pre_row {row : List Text} {u : Text} (h : Pre row u) : ∀ {fs : List Text} {s : Text}, Row fs s → Row (row ++ fs) (u ++ s) := by
  induction h with
  | nil => intro fs s hr; exact hr
  | snoc row u f s _ hf ih =>
    intro fs s' hr
    have := ih (Row.more f s fs s' hf hr)
    simpa using this

theorem pre_open {row : List Text} {u : Text} (h : Pre row u) : ∀ {fs : List Text} {s : Text}, OpenRow fs s →
    OpenRow (row ++ fs) (u ++ s) := by
  induction h with
  | nil => intro fs s hr; exact hr
  | snoc row u f s _ hf ih =>
    intro fs s' hr
    have := ih (OpenRow.more f s fs s' hf hr)
    simpa using this

/-- A field that more characters can be added to. -/
inductive Growing : Text → Text → Prop where
  | plain (f : Text) : Bare f → f ≠ [] → f.head? ≠ some '"' → Growing f f
  | quoted (q tail : Text) : Bare tail → tail ≠ [] → tail.head? ≠ some '"' → Growing (q ++ tail) ('"' :: esc q ++ '"' :: tail)

theorem Growing.field {f s : Text} (h : Growing f s) : Field f s := by
  cases h with
  | plain _ hb hne hq => exact .plain f hb hq
  | quoted q tail hb hne hq => exact .quoted q tail hb hq

theorem bare_snoc {s : Text} {c : Char} (h : Bare s) (h1 : c ≠ ',') (h2 : term c = false) : Bare (s ++ [c]) := by
  intro x hx
  rw [List.mem_append, List.mem_singleton] at hx
  rcases hx with hx | rfl
  · exact h x hx
  · refine ⟨h1, ?_, ?_⟩ <;> (rintro rfl; revert h2; decide)

theorem head_snoc {s : Text} {c : Char} (h : s ≠ []) : (s ++ [c]).head? = s.head? := by
  cases s with
  | nil => exact absurd rfl h
  | cons a s => rfl

theorem Growing.snoc {f s : Text} (h : Growing f s) {c : Char} (h1 : c ≠ ',') (h2 : term c = false) :
    Growing (f ++ [c]) (s ++ [c]) := by
  cases h with
  | plain _ hb hne hq => exact .plain _ (bare_snoc hb h1 h2) (by simp) (by rw [head_snoc hne]; exact hq)
  | quoted q tail hb hne hq =>
    have := Growing.quoted q (tail ++ [c]) (bare_snoc hb h1 h2) (by simp) (by rw [head_snoc hne]; exact hq)
    simpa using this

/-- The text read since the start of the record. -/
inductive Partial : St → Text → List Text → Text → Prop where
  | startField (row : List Text) (u : Text) : Pre row u → Partial .startField [] row u
  | inField (row : List Text) (u f s : Text) : Pre row u → Growing f s → Partial .inField f row (u ++ s)
  | inQuoted (row : List Text) (u f : Text) : Pre row u → Partial .inQuoted f row (u ++ '"' :: esc f)
  | inDouble (row : List Text) (u f : Text) : Pre row u → Partial .inDouble f row (u ++ '"' :: esc f ++ ['"'])

theorem bare_nil : Bare [] := by intro c h; cases h

theorem field_nil : Field [] [] := .plain [] bare_nil (by simp)

theorem field_closed (q : Text) : Field q ('"' :: esc q ++ ['"']) := by
  have := Field.quoted q [] bare_nil (by simp)
  simpa using this

/-- The text of the current record so far spells a record, unless a quotation is open. -/
theorem Partial.row {st : St} {f : Text} {row : List Text} {u : Text} (h : Partial st f row u) (hq : st ≠ .inQuoted) :
    ∃ u' s, u = u' ++ s ∧ Pre row u' ∧ Field f s := by
  cases h with
  | startField _ _ hp => exact ⟨u, [], by simp, hp, field_nil⟩
  | inField _ u _ s hp hg => exact ⟨u, s, rfl, hp, hg.field⟩
  | inQuoted => exact absurd rfl hq
  | inDouble _ u _ hp => exact ⟨u, _, by simp, hp, field_closed f⟩

theorem every_text (s : Text) : Lines (run .startRecord [] [] s) s ∧
    ∀ (st : St) (f : Text) (row : List Text) (u : Text), Partial st f row u → (u = [] → ∃ c r, s = c :: r ∧ term c = false) →
      Lines (run st f row s) (u ++ s) := by
  induction s with
  | nil =>
    refine ⟨Lines.nil, ?_⟩
    intro st f row u hp hu
    have hne : u ≠ [] := by intro h; obtain ⟨c, r, h', -⟩ := hu h; cases h'
    have hst : st ≠ .startRecord := by cases hp <;> simp
    simp only [run, if_neg hst, List.append_nil]
    by_cases hq : st = .inQuoted
    · subst hq
      cases hp with
      | inQuoted _ u _ hp => exact .cut _ _ (pre_open hp (.one f))
    · obtain ⟨u', s, rfl, h1, h2⟩ := hp.row hq
      exact .last _ _ (pre_row h1 (.one f s h2)) hne
  | cons c s ih =>
    obtain ⟨ih1, ih2⟩ := ih
    have key : ∀ (st : St) (f : Text) (row : List Text) (u : Text), Partial st f row u →
        (u = [] → ∃ c' r, c :: s = c' :: r ∧ term c' = false) → Lines (run st f row (c :: s)) (u ++ c :: s) := by
      intro st f row u hp hu
      have hend : st ≠ .inQuoted → Lines (run .startField [] (row ++ [f]) s) (u ++ ',' :: s) := by
        intro hq
        obtain ⟨u', v, rfl, h1, h2⟩ := hp.row hq
        have := ih2 .startField [] (row ++ [f]) (u' ++ v ++ [',']) (.startField _ _ (.snoc row u' f v h1 h2)) (by simp)
        simpa using this
      have hrow : st ≠ .inQuoted → term c = true → Lines ((row ++ [f]) :: run .startRecord [] [] s) (u ++ c :: s) := by
        intro hq hc
        have hne : u ≠ [] := by
          intro h
          obtain ⟨c', r, h', hc'⟩ := hu h
          simp only [List.cons.injEq] at h'
          rw [← h'.1, hc] at hc'; cases hc'
        obtain ⟨u', v, rfl, h1, h2⟩ := hp.row hq
        exact .row _ _ c _ s (pre_row h1 (.one f v h2)) hne hc ih1
      cases hp with
      | startField _ _ hp =>
        simp only [run, step]
        by_cases h1 : c = '"'
        · subst h1
          simp only [if_true]
          have := ih2 .inQuoted [] row (u ++ '"' :: esc []) (.inQuoted row u [] hp) (by simp)
          simpa [esc] using this
        · by_cases h2 : c = ','
          · subst h2; simp only [if_neg h1, if_true]; exact hend (by simp)
          · by_cases h3 : term c = true
            · simp only [if_neg h1, if_neg h2, h3, if_true]; exact hrow (by simp) h3
            · simp only [if_neg h1, if_neg h2, if_neg h3]
              have h3' : term c = false := by simpa using h3
              have := ih2 .inField [c] row (u ++ [c]) (.inField row u [c] [c] hp
                (.plain [c] (by simpa using bare_snoc bare_nil h2 h3') (by simp) (by simpa using h1))) (by simp)
              simpa using this
      | inField _ u _ v hp hg =>
        simp only [run, step]
        by_cases h2 : c = ','
        · subst h2; simp only [if_true]; exact hend (by simp)
        · by_cases h3 : term c = true
          · simp only [if_neg h2, h3, if_true]; exact hrow (by simp) h3
          · simp only [if_neg h2, if_neg h3]
            have h3' : term c = false := by simpa using h3
            have := ih2 .inField (f ++ [c]) row (u ++ (v ++ [c])) (.inField row u _ _ hp (hg.snoc h2 h3')) (by simp)
            simpa using this
      | inQuoted _ u _ hp =>
        simp only [run, step]
        by_cases h1 : c = '"'
        · subst h1
          simp only [if_true]
          have := ih2 .inDouble f row _ (.inDouble row u f hp) (by simp)
          simpa using this
        · simp only [if_neg h1]
          have := ih2 .inQuoted (f ++ [c]) row _ (.inQuoted row u (f ++ [c]) hp) (by simp)
          rw [esc_append] at this
          simpa [esc, h1] using this
      | inDouble _ u _ hp =>
        simp only [run, step]
        by_cases h1 : c = '"'
        · subst h1
          simp only [if_true]
          have := ih2 .inQuoted (f ++ ['"']) row _ (.inQuoted row u (f ++ ['"']) hp) (by simp)
          rw [esc_append] at this
          simpa [esc] using this
        · by_cases h2 : c = ','
          · subst h2; simp only [if_neg h1, if_true]; exact hend (by simp)
          · by_cases h3 : term c = true
            · simp only [if_neg h1, if_neg h2, h3, if_true]; exact hrow (by simp) h3
            · simp only [if_neg h1, if_neg h2, if_neg h3]
              have h3' : term c = false := by simpa using h3
              have := ih2 .inField (f ++ [c]) row (u ++ ('"' :: esc f ++ '"' :: [c])) (.inField row u _ _ hp
                (.quoted f [c] (by simpa using bare_snoc bare_nil h2 h3') (by simp) (by simpa using h1))) (by simp)
              simpa using this
    refine ⟨?_, key⟩
    by_cases hc : term c = true
    · simp only [run, step, hc, if_true]; exact .blank c _ s hc ih1
    · have hc' : term c = false := by simpa using hc
      rw [run_start hc']
      have := key .startField [] [] [] (.startField [] [] .nil) (fun _ => ⟨c, s, rfl, hc'⟩)
      simpa using this

/-- **C78, records.** A text is read as the records that it spells; every text spells exactly one sequence of records. A byte
order mark at the start is ignored. -/
theorem c78_records (s : Text) (rows : List (List Text)) : readRows s = rows ↔
    (∃ r, s = '\uFEFF' :: r ∧ Lines rows r) ∨ (s.head? ≠ some '\uFEFF' ∧ Lines rows s) := by
  have key : ∀ t : Text, run .startRecord [] [] t = rows ↔ Lines rows t :=
    fun t => ⟨fun h => h ▸ (every_text t).1, read_lines⟩
  unfold readRows
  cases s with
  | nil => simp [stripBom, key]
  | cons c s =>
    simp only [stripBom]
    by_cases hc : c = '\uFEFF'
    · subst hc; simp [key]
    · simp [hc, key]

/-! ## What the writer writes -/

theorem special_bare {f : Text} (h : f.any special = false) : Bare f ∧ '"' ∉ f := by
  rw [List.any_eq_false] at h
  refine ⟨?_, ?_⟩
  · intro c hc
    have := h c hc
    simp only [special, Bool.not_eq_true, Bool.or_eq_false_iff, beq_eq_false_iff_ne] at this
    exact ⟨this.1.1.1, this.1.2, this.2⟩
  · intro hq
    exact h _ hq (by decide)

theorem write_field (f : Text) : Field f (writeField f) := by
  unfold writeField
  cases h : f.any special with
  | true => simp only [if_true]; exact field_closed f
  | false =>
    simp only [Bool.false_eq_true, if_false]
    obtain ⟨h1, h2⟩ := special_bare h
    refine .plain f h1 ?_
    intro hh
    exact h2 (List.mem_of_head? hh)

theorem write_fields (fs : List Text) (h : fs ≠ []) : Row fs (writeFields fs) := by
  induction fs with
  | nil => exact absurd rfl h
  | cons f fs ih =>
    cases fs with
    | nil => exact .one f _ (write_field f)
    | cons g fs => exact .more f _ _ _ (write_field f) (ih (by simp))

theorem writeFields_nil {fs : List Text} (h : fs ≠ []) (hw : writeFields fs = []) : fs = [[]] := by
  cases fs with
  | nil => exact absurd rfl h
  | cons f fs =>
    cases fs with
    | nil =>
      simp only [writeFields, writeField] at hw
      split at hw
      · simp at hw
      · rw [hw]
    | cons g fs => simp [writeFields] at hw

/-- The text of a record, without its line ending. -/
def rowText (fs : List Text) : Text := if writeFields fs = [] then ['"', '"'] else writeFields fs

theorem rowText_row (fs : List Text) (h : fs ≠ []) : Row fs (rowText fs) ∧ rowText fs ≠ [] := by
  unfold rowText
  split
  · rename_i hw
    rw [writeFields_nil h hw]
    exact ⟨.one [] _ (field_closed []), by simp⟩
  · rename_i hw
    exact ⟨write_fields fs h, hw⟩

theorem write_rows (rows : List (List Text)) (h : ∀ r ∈ rows, r ≠ []) : Lines rows (writeRows rows) := by
  induction rows with
  | nil => exact .nil
  | cons r rows ih =>
    obtain ⟨h1, h2⟩ := rowText_row r (h r (by simp))
    have := Lines.row r _ '\n' _ _ h1 h2 (by decide) (ih fun x hx => h x (by simp [hx]))
    have e : writeRows (r :: rows) = rowText r ++ '\n' :: writeRows rows := by
      simp [writeRows, writeRow, rowText]
    rw [e]; exact this

/-- **C78, round trip of records.** Whatever the fields contain, records that are written are read back, unless the first field
starts with a byte order mark. -/
theorem c78_records_roundtrip (rows : List (List Text)) (h : ∀ r ∈ rows, r ≠ []) (hb : (writeRows rows).head? ≠ some '\uFEFF') :
    readRows (writeRows rows) = rows :=
  (c78_records _ _).2 (.inr ⟨hb, write_rows rows h⟩)

/-! ## Texts that are cut -/

/-- A record that is cut: its first fields, and a beginning of the next one. -/
def CutOf (row fs : List Text) : Prop := ∃ pre f post g, row = pre ++ f :: post ∧ g <+: f ∧ fs = pre ++ [g]

theorem prefix_esc (f : Text) : ∀ v, v <+: esc f → ∃ g, g <+: f ∧ (v = esc g ∨ v = esc g ++ ['"']) := by
  induction f with
  | nil => intro v h; simp only [esc, List.prefix_nil] at h; exact ⟨[], List.prefix_rfl, .inl h⟩
  | cons c f ih =>
    intro v h
    cases v with
    | nil => exact ⟨[], List.nil_prefix, .inl rfl⟩
    | cons a v =>
      simp only [esc] at h
      split at h
      · rename_i hc; subst hc
        rw [List.cons_prefix_cons] at h
        obtain ⟨rfl, h⟩ := h
        cases v with
        | nil => exact ⟨[], List.nil_prefix, .inr rfl⟩
        | cons b v =>
          rw [List.cons_prefix_cons] at h
          obtain ⟨rfl, h⟩ := h
          obtain ⟨g, hg, hv⟩ := ih v h
          refine ⟨'"' :: g, List.cons_prefix_cons.2 ⟨rfl, hg⟩, ?_⟩
          simpa [esc] using hv
      · rename_i hc
        rw [List.cons_prefix_cons] at h
        obtain ⟨rfl, h⟩ := h
        obtain ⟨g, hg, hv⟩ := ih v h
        refine ⟨a :: g, List.cons_prefix_cons.2 ⟨rfl, hg⟩, ?_⟩
        simpa [esc, hc] using hv

/-- A beginning of a field that was written spells a beginning of the field, or opens a quotation with it. -/
theorem prefix_field (f v : Text) (h : v <+: writeField f) : ∃ g, g <+: f ∧ (Field g v ∨ OpenRow [g] v) := by
  unfold writeField at h
  cases hs : f.any special with
  | false =>
    rw [hs] at h
    simp only [Bool.false_eq_true, if_false] at h
    obtain ⟨h1, h2⟩ := special_bare hs
    refine ⟨v, h, .inl (.plain v (fun c hc => h1 c (h.subset hc)) ?_)⟩
    intro hh
    exact h2 (h.subset (List.mem_of_head? hh))
  | true =>
    rw [hs] at h
    simp only [if_true] at h
    cases v with
    | nil => exact ⟨[], List.nil_prefix, .inl field_nil⟩
    | cons a v =>
      rw [List.cons_append, List.cons_prefix_cons] at h
      obtain ⟨rfl, h⟩ := h
      rw [List.prefix_concat_iff] at h
      rcases h with h | h
      · refine ⟨f, List.prefix_rfl, .inl ?_⟩
        rw [h]; exact field_closed f
      · obtain ⟨g, hg, hv⟩ := prefix_esc f v h
        rcases hv with rfl | rfl
        · exact ⟨g, hg, .inr (.one g)⟩
        · exact ⟨g, hg, .inl (field_closed g)⟩

theorem prefix_split {v a b : Text} (h : v <+: a ++ b) : v <+: a ∨ ∃ w, v = a ++ w ∧ w <+: b := by
  induction a generalizing v with
  | nil => exact .inr ⟨v, rfl, h⟩
  | cons c a ih =>
    cases v with
    | nil => exact .inl List.nil_prefix
    | cons d v =>
      rw [List.cons_append, List.cons_prefix_cons] at h
      obtain ⟨rfl, h⟩ := h
      rcases ih h with h1 | ⟨w, rfl, h1⟩
      · exact .inl (List.cons_prefix_cons.2 ⟨rfl, h1⟩)
      · exact .inr ⟨w, rfl, h1⟩

theorem prefix_fields (fs : List Text) : ∀ v, v <+: writeFields fs → fs ≠ [] → ∃ gs, CutOf fs gs ∧ (Row gs v ∨ OpenRow gs v) := by
  induction fs with
  | nil => intro v _ h; exact absurd rfl h
  | cons f fs ih =>
    intro v h _
    have one : v <+: writeField f → ∃ gs, CutOf (f :: fs) gs ∧ (Row gs v ∨ OpenRow gs v) := by
      intro h
      obtain ⟨g, hg, hv⟩ := prefix_field f v h
      refine ⟨[g], ⟨[], f, fs, g, rfl, hg, rfl⟩, ?_⟩
      rcases hv with hv | hv
      · exact .inl (.one g v hv)
      · exact .inr hv
    cases fs with
    | nil => exact one h
    | cons f' fs =>
      simp only [writeFields] at h
      rcases prefix_split h with h0 | ⟨w, rfl, h0⟩
      · exact one h0
      · cases w with
        | nil => rw [List.append_nil]; rw [List.append_nil] at one; exact one List.prefix_rfl
        | cons a w =>
          rw [List.cons_prefix_cons] at h0
          obtain ⟨rfl, h1⟩ := h0
          obtain ⟨gs, ⟨pre, x, post, g, e1, hg, rfl⟩, hw⟩ := ih w h1 (by simp)
          refine ⟨f :: (pre ++ [g]), ⟨f :: pre, x, post, g, by rw [e1]; rfl, hg, rfl⟩, ?_⟩
          rcases hw with hw | hw
          · exact .inl (.more f _ _ w (write_field f) hw)
          · exact .inr (.more f _ _ w (write_field f) hw)

theorem prefix_row (fs : List Text) (h : fs ≠ []) (v : Text) (hv : v <+: rowText fs) (hne : v ≠ []) :
    ∃ gs, CutOf fs gs ∧ Lines [gs] v := by
  have main : ∀ gs, CutOf fs gs → (Row gs v ∨ OpenRow gs v) → ∃ gs, CutOf fs gs ∧ Lines [gs] v := by
    intro gs hg hr
    refine ⟨gs, hg, ?_⟩
    rcases hr with hr | hr
    · exact .last gs v hr hne
    · exact .cut gs v hr
  unfold rowText at hv
  split at hv
  · rename_i hw
    have hf := writeFields_nil h hw
    rw [hf]
    rw [hf] at main
    have hcut : CutOf [[]] [[]] := ⟨[], [], [], [], rfl, List.prefix_rfl, rfl⟩
    refine main [[]] hcut ?_
    cases v with
    | nil => exact absurd rfl hne
    | cons a v =>
      rw [List.cons_prefix_cons] at hv
      obtain ⟨rfl, hv⟩ := hv
      cases v with
      | nil => exact .inr (.one [])
      | cons b v =>
        rw [List.cons_prefix_cons] at hv
        obtain ⟨rfl, hv⟩ := hv
        rw [List.prefix_nil] at hv
        subst hv
        exact .inl (.one [] _ (field_closed []))
  · obtain ⟨gs, h1, h2⟩ := prefix_fields fs v hv h
    exact main gs h1 h2

theorem prefix_lines (rows : List (List Text)) (h : ∀ r ∈ rows, r ≠ []) : ∀ p, p <+: writeRows rows →
    ∃ done rest, rows = done ++ rest ∧ (Lines done p ∨ ∃ row rest' fs, rest = row :: rest' ∧ CutOf row fs ∧ Lines (done ++ [fs]) p) := by
  induction rows with
  | nil =>
    intro p hp
    simp only [writeRows, List.flatMap_nil, List.prefix_nil] at hp
    exact ⟨[], [], rfl, .inl (hp ▸ .nil)⟩
  | cons r rows ih =>
    intro p hp
    have e : writeRows (r :: rows) = (rowText r ++ ['\n']) ++ writeRows rows := by
      simp [writeRows, writeRow, rowText]
    rw [e] at hp
    obtain ⟨h1, h2⟩ := rowText_row r (h r (by simp))
    rcases prefix_split hp with hp | ⟨w, rfl, hw⟩
    · rw [List.prefix_concat_iff] at hp
      rcases hp with rfl | hp
      · exact ⟨[r], rows, rfl, .inl (.row r _ '\n' [] [] h1 h2 (by decide) .nil)⟩
      · by_cases hne : p = []
        · subst hne; exact ⟨[], r :: rows, rfl, .inl .nil⟩
        · obtain ⟨gs, hg, hl⟩ := prefix_row r (h r (by simp)) p hp hne
          exact ⟨[], r :: rows, rfl, .inr ⟨r, rows, gs, rfl, hg, hl⟩⟩
    · obtain ⟨done, rest, e1, hl⟩ := ih (fun x hx => h x (by simp [hx])) w hw
      refine ⟨r :: done, rest, by rw [e1]; rfl, ?_⟩
      rw [List.append_assoc]
      rcases hl with hl | ⟨row, rest', fs, e2, hc, hl⟩
      · exact .inl (.row r _ '\n' _ _ h1 h2 (by decide) hl)
      · exact .inr ⟨row, rest', fs, e2, hc, .row r _ '\n' _ _ h1 h2 (by decide) hl⟩

/-- **C78, cut records.** A text of which only a beginning was written is read as a beginning of the records, the last one
possibly cut within one of its fields. -/
theorem c78_records_prefix (rows : List (List Text)) (h : ∀ r ∈ rows, r ≠ []) (hb : (writeRows rows).head? ≠ some '\uFEFF') (p : Text)
    (hp : p <+: writeRows rows) : ∃ done rest, rows = done ++ rest ∧
      (readRows p = done ∨ ∃ row rest' fs, rest = row :: rest' ∧ CutOf row fs ∧ readRows p = done ++ [fs]) := by
  have hb' : p.head? ≠ some '\uFEFF' := by
    intro e
    obtain ⟨r, hr⟩ := hp
    cases p with
    | nil => cases e
    | cons a p => rw [← hr] at hb; exact hb (by simpa using e)
  obtain ⟨done, rest, e1, hl⟩ := prefix_lines rows h p hp
  refine ⟨done, rest, e1, ?_⟩
  rcases hl with hl | ⟨row, rest', fs, e2, hc, hl⟩
  · exact .inl ((c78_records _ _).2 (.inr ⟨hb', hl⟩))
  · exact .inr ⟨row, rest', fs, e2, hc, (c78_records _ _).2 (.inr ⟨hb', hl⟩)⟩

end Verif.Build.Csv
