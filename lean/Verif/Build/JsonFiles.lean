/-
C79: trace files and compilation databases as they are on disk: bytes, text, JSON value, meaning.
Models `ClangTrace::from_file` (clang-time-trace/src/lib.rs, `from_file` and 218-226) and
`CompilationDatabase::load` (cmakeperf/src/commands.rs:40-48, 125-132), once the bytes of the file have been read.
-/
import Verif.Trace.JsonWrite
import Verif.Build.DatabaseJson

set_option autoImplicit false
set_option linter.unusedVariables false
set_option linter.unusedSimpArgs false
set_option linter.unusedSectionVars false

namespace Verif.Build.JsonFiles

open Verif.Trace Verif.Trace.Ctf Verif.Trace.Ctf.Text

variable {F : Type}

/-! ## Model -/

/-- `read_to_string`: the bytes must be valid UTF-8 (a byte order mark is kept). -/
def fileText (b : ByteArray) : Option (List Char) := (String.fromUTF8? b).map String.toList

/-- `CompilationDatabase::from_str` (commands.rs:125-132) -/
def databaseOfText (dec : List Char → Option F) (t : List Char) : Option Db := (parse dec t).bind Db.ofJson

/-- `CompilationDatabase::load` (commands.rs:40-48) on the content of the file -/
def databaseOfFile (dec : List Char → Option F) (b : ByteArray) : Option Db := (fileText b).bind (databaseOfText dec)

section
variable [LinearOrder F] [Zero F] [One F] [Add F] [Sub F]

/-- `ClangTrace::from_str` (lib.rs:218-354); `none` is `CtfParseError` -/
def traceOfText (cc : CharClass) (tmin : F) (cast : Int → F) (dec : List Char → Option F) (t : List Char) :
    Option (Except (TErr F) (ClangTrace F)) := (parse dec t).bind (load cc tmin cast)

/-- `ClangTrace::from_file` on the content of the file; `none` is an I/O error or `CtfParseError` -/
def traceOfFile (cc : CharClass) (tmin : F) (cast : Int → F) (dec : List Char → Option F) (b : ByteArray) :
    Option (Except (TErr F) (ClangTrace F)) := (fileText b).bind (traceOfText cc tmin cast dec)

end

/-! ## Proofs -/

theorem fileText_iff (b : ByteArray) (t : List Char) : fileText b = some t ↔ b = t.utf8Encode := by
  unfold fileText String.fromUTF8?
  split
  · next h =>
    simp only [Option.map_some, Option.some.injEq]
    constructor
    · rintro rfl
      have : (String.fromUTF8 b h).toByteArray = b := rfl
      exact this.symm.trans (by simp)
    · rintro rfl
      have : String.fromUTF8 t.utf8Encode h = String.ofList t := rfl
      rw [this]; simp
  · next h =>
    simp only [Option.map_none, reduceCtorEq, false_iff]
    rintro rfl
    exact h ByteArray.isValidUTF8_utf8Encode

/-- A cut file: what is left either is not text, or is the beginning of the text. -/
theorem text_cut (b c d : ByteArray) (t : List Char) (h : fileText b = some t) (e : b = c ++ d) :
    fileText c = none ∨ ∃ p q, fileText c = some p ∧ t = p ++ q ∧ d = q.utf8Encode := by
  cases hc : fileText c with
  | none => exact .inl rfl
  | some p =>
    right
    rw [fileText_iff] at h hc
    subst hc
    have hp : p <+: t := List.isPrefix_of_utf8Encode_append_eq_utf8Encode d (by rw [← e, h])
    obtain ⟨q, rfl⟩ := hp
    refine ⟨p, q, rfl, rfl, ?_⟩
    rw [h, List.utf8Encode_append] at e
    exact ((ByteArray.append_right_inj _).1 e).symm

/-- Blank bytes -/
def BlankBytes (d : ByteArray) : Prop := ∃ q, Blank q ∧ d = q.utf8Encode

/-- Reading a file in a format whose documents are never numbers, and cutting it or adding to it -/
theorem file_cut {α : Type} (dec : List Char → Option F) (read : Json F → Option α) (hread : ∀ j x, read j = some x → ∀ n, j ≠ .num n)
    (b c d : ByteArray) (e : b = c ++ d) :
    (∀ x, ((fileText b).bind fun t => (parse dec t).bind read) = some x →
      ((fileText c).bind fun t => (parse dec t).bind read) = none ∨
      (((fileText c).bind fun t => (parse dec t).bind read) = some x ∧ BlankBytes d)) ∧
    (∀ x, ((fileText c).bind fun t => (parse dec t).bind read) = some x →
      ((fileText b).bind fun t => (parse dec t).bind read) = none ∨ BlankBytes d) := by
  constructor
  · intro x h
    obtain ⟨t, ht, h1⟩ := Option.bind_eq_some_iff.1 h
    obtain ⟨j, hj, h⟩ := Option.bind_eq_some_iff.1 h1
    clear h1
    rcases text_cut b c d t ht e with hc | ⟨p, q, hc, rfl, hd⟩
    · left; rw [hc]; rfl
    · rw [hc]
      simp only [Option.bind_some]
      rcases c79_cut dec (p ++ q) p q j (hread j x (by assumption)) hj rfl with hp | ⟨hp, hq⟩
      · left; rw [hp]; rfl
      · right; rw [hp]; exact ⟨by assumption, q, hq, hd⟩
  · intro x h
    obtain ⟨p, hp, h1⟩ := Option.bind_eq_some_iff.1 h
    obtain ⟨j, hj, h2⟩ := Option.bind_eq_some_iff.1 h1
    have h := h2
    cases ht : fileText b with
    | none => left; rfl
    | some t =>
      simp only [Option.bind_some]
      cases hj' : parse dec t with
      | none => left; rfl
      | some j' =>
        right
        rcases text_cut b c d t ht e with hc | ⟨p', q, hc, rfl, hd⟩
        · rw [hc] at hp; simp at hp
        · rw [hc] at hp; simp only [Option.some.injEq] at hp
          subst hp
          have hn : isNum j = false := by
            have := hread j x h2
            cases j with
            | num n => exact absurd rfl (this n)
            | _ => rfl
          exact ⟨q, (prefix_value dec p' q j j' hj hn hj').2, hd⟩

theorem ofJson_array (j : Json F) (db : Db) (h : Db.ofJson j = some db) : ∀ n, j ≠ .num n := by
  rintro n rfl
  simp [Db.ofJson, readEntries] at h

/-! ## C79: compilation databases -/

/-- C79: a file is read as a compilation database exactly if it is the UTF-8 encoding of a text of an array of entries. -/
theorem c79_database_iff (dec : List Char → Option F) (b : ByteArray) (db : Db) :
    databaseOfFile dec b = some db ↔
      ∃ t js es, b = t.utf8Encode ∧ IsText dec (.arr js) t ∧ List.Forall₂ IsEntry js es ∧ db = Db.fromEntries es := by
  unfold databaseOfFile databaseOfText
  simp only [Option.bind_eq_some_iff, fileText_iff]
  constructor
  · rintro ⟨t, rfl, j, hj, h⟩
    unfold Db.ofJson at h
    obtain ⟨es, he, rfl⟩ := Option.map_eq_some_iff.1 h
    obtain ⟨js, rfl, hf⟩ := (c75_database_iff j es).1 he
    exact ⟨t, js, es, rfl, (c79_reads dec t _).1 hj, hf, rfl⟩
  · rintro ⟨t, js, es, rfl, ht, hf, rfl⟩
    refine ⟨t, rfl, .arr js, (c79_reads dec t _).2 ht, ?_⟩
    unfold Db.ofJson
    rw [(c75_database_iff (.arr js) es).2 ⟨js, rfl, hf⟩]; rfl

/-- C79: a compilation database that was cut is refused, unless only blanks were lost; one with something more at the end
is refused, unless these are blanks. -/
theorem c79_database_cut (dec : List Char → Option F) (c d : ByteArray) :
    (∀ db, databaseOfFile dec (c ++ d) = some db →
      databaseOfFile dec c = none ∨ (databaseOfFile dec c = some db ∧ BlankBytes d)) ∧
    (∀ db, databaseOfFile dec c = some db → databaseOfFile dec (c ++ d) = none ∨ BlankBytes d) :=
  file_cut dec Db.ofJson ofJson_array (c ++ d) c d rfl

/-! ## C79: time traces -/

section
variable [LinearOrder F] [Zero F] [One F] [Add F] [Sub F]

theorem load_object (cc : CharClass) (tmin : F) (cast : Int → F) (j : Json F) (x : Except (TErr F) (ClangTrace F))
    (h : load cc tmin cast j = some x) : ∀ n, j ≠ .num n := by
  rintro n rfl
  simp [load, readDoc] at h

/-- C79: a trace that was cut is refused, unless only blanks were lost, and one with something more at the end is refused,
unless these are blanks: a trace is never taken for a shorter one. -/
theorem c79_trace_cut (cc : CharClass) (tmin : F) (cast : Int → F) (dec : List Char → Option F) (c d : ByteArray) :
    (∀ r, traceOfFile cc tmin cast dec (c ++ d) = some r →
      traceOfFile cc tmin cast dec c = none ∨ (traceOfFile cc tmin cast dec c = some r ∧ BlankBytes d)) ∧
    (∀ r, traceOfFile cc tmin cast dec c = some r → traceOfFile cc tmin cast dec (c ++ d) = none ∨ BlankBytes d) :=
  file_cut dec (load cc tmin cast) (load_object cc tmin cast) (c ++ d) c d rfl

end

section
variable [LinearOrder F] [Zero F] [One F] [Add F] [Sub F]
variable (cc : CharClass) {tmin : F} (h01 : (0 : F) ≤ 1) (htmin : ∀ x : F, tmin ≤ x) (cast : Int → F) (dec : List Char → Option F)
include h01 htmin

/-- C79: a file is loaded as a trace exactly if it is the UTF-8 encoding of a text of an object as in C74. -/
theorem c79_trace_iff (b : ByteArray) :
    (∃ tr, traceOfFile cc tmin cast dec b = some (.ok tr)) ↔
      ∃ t l evs, b = t.utf8Encode ∧ IsText dec (.obj l) t ∧ Has l "traceEvents" (IsEvents cast) evs ∧ Header cast l ∧
        GoodEvents evs ∧ evs.flatMap processNameOf ≠ [] := by
  unfold traceOfFile traceOfText
  simp only [Option.bind_eq_some_iff, fileText_iff]
  constructor
  · rintro ⟨tr, t, rfl, j, hj, h⟩
    obtain ⟨l, evs, rfl, h1, h2, h3, h4⟩ := (c74_accept_iff cc h01 htmin cast j).1 ⟨tr, h⟩
    exact ⟨t, l, evs, rfl, (c79_reads dec t _).1 hj, h1, h2, h3, h4⟩
  · rintro ⟨t, l, evs, rfl, ht, h1, h2, h3, h4⟩
    obtain ⟨tr, h⟩ := (c74_accept_iff cc h01 htmin cast (.obj l)).2 ⟨l, evs, rfl, h1, h2, h3, h4⟩
    exact ⟨tr, t, rfl, .obj l, (c79_reads dec t _).2 ht, h⟩

/-- C79: loading a file panics exactly if it gives an empty list of events, or an event with an empty detail that comes
before anything else that is wrong (C74). -/
theorem c79_trace_panic_iff (b : ByteArray) :
    traceOfFile cc tmin cast dec b = some (.error .panic) ↔
      ∃ t l evs, b = t.utf8Encode ∧ IsText dec (.obj l) t ∧ Has l "traceEvents" (IsEvents cast) evs ∧ Header cast l ∧
        (evs = [] ∨ ∃ pre ev post, evs = pre ++ ev :: post ∧ GoodEvents pre ∧ EmptyDetailEvent ev ∧
          ∀ p ∈ pre.flatMap pidsOf, ∀ q ∈ pidsOf ev, p = q) := by
  unfold traceOfFile traceOfText
  simp only [Option.bind_eq_some_iff, fileText_iff]
  constructor
  · rintro ⟨t, rfl, j, hj, h⟩
    obtain ⟨l, evs, rfl, h1, h2, h3⟩ := (c74_panic_iff cc h01 htmin cast j).1 h
    exact ⟨t, l, evs, rfl, (c79_reads dec t _).1 hj, h1, h2, h3⟩
  · rintro ⟨t, l, evs, rfl, ht, h1, h2, h3⟩
    exact ⟨t, rfl, .obj l, (c79_reads dec t _).2 ht, (c74_panic_iff cc h01 htmin cast (.obj l)).2 ⟨l, evs, rfl, h1, h2, h3⟩⟩

end

/-! ## Examples -/

/-- The document of C74's example has a text, hence a file. -/
example (cc : CharClass) (dec : List Char → Option Nat) :
    ∃ b tr, traceOfFile cc 0 exCast dec b = some (.ok tr) ∧ tr.beginningOfTime = some 3 := by
  obtain ⟨t, ht⟩ := (c79_values dec exJson).2 ⟨by decide, by
    intro n hn
    have h : ∀ n ∈ numbers exJson, ∃ k, n = .nat k ∧ k < 100 := by
      simp [exJson, numbers, numbersEntries, numbersItems]
    obtain ⟨k, rfl, hk⟩ := h n hn
    exact (c79_integers dec k).1.2 (by omega)⟩
  obtain ⟨tr, hx⟩ := (c58_accept_iff cc (by decide) Nat.zero_le
    ⟨exEvs, true, [("beginningOfTime", .num (some 3) 3)]⟩ (exEvs_keys _ fun _ h => h)).2
    ⟨rfl, by intro v hv; simp [List.lookup] at hv; exact ⟨_, _, hv.symm⟩, exEvs_good, by decide⟩
  refine ⟨t.utf8Encode, tr, ?_, by rw [c58_beginning_of_time hx]; rfl⟩
  rw [traceOfFile, (fileText_iff _ t).2 rfl, Option.bind_some, traceOfText, ht, Option.bind_some, load, exJson_doc, Option.map_some, hx]

/-- A database text: its entry is found, and the text without its last bracket is refused. -/
def exText : List Char := "[{\"directory\":\"/b\",\"command\":\"cc -c a.c\",\"file\":\"/b/a.c\"}]".toList

example : ((databaseOfText same exText).bind fun db => (db.entry "/b/a.c".toList).map (·.words)) =
      some ["cc".toList, "-c".toList, "a.c".toList] ∧
    ((databaseOfText same exText.dropLast).bind fun db => (db.entry "/b/a.c".toList).map (·.words)) = none := by
  decide +kernel

end Verif.Build.JsonFiles
