/-
C75: what a compilation database file means: from its JSON value to the commands that are run.
Models the deserialization of cmakeperf/src/commands.rs, and how commands are started
(cmakeperf/src/measure/worker.rs:128-146, src/ui/tui/trace/measure.rs:81-89). JSON text is in Trace/JsonText.lean (C79).
-/
import Verif.Build.Shlex
import Verif.Trace.JsonDoc

set_option autoImplicit false
set_option linter.unusedVariables false
set_option linter.unusedSimpArgs false

namespace Verif.Build

open Verif.Intern (Name Comp pathComponents)
open Verif.Trace.Ctf (Json Entries visit required optional readStr readOpt readAll occ Has May IsStr)

variable {F : Type}

/-! ## Model -/

/-- Fields of `DatabaseEntry` (commands.rs:153-166) -/
def entryFields : List String := ["directory", "command", "file", "output"]

/-- An entry from its fields; the command is split when it is needed (commands.rs:246-248). -/
def mkEntry (directory command file : String) (output : Option String) : Entry :=
  ⟨directory.toList, Shlex.words command.toList, file.toList, output.map String.toList⟩

/-- `#[derive(Deserialize)] #[serde(deny_unknown_fields)] DatabaseEntry` (commands.rs:151-166): an unknown key is an error; an
array gives the fields in order, all of them -/
def readEntry : Json F → Option Entry
  | .obj l =>
    match visit entryFields [] [] l with
    | some (s, []) =>
      match required readStr s "directory", required readStr s "command", required readStr s "file",
        optional readStr s "output" with
      | some d, some c, some f, some o => some (mkEntry d c f o)
      | _, _, _, _ => none
    | _ => none
  | .arr [d, c, f, o] =>
    match readStr d, readStr c, readStr f, readOpt readStr o with
    | some d, some c, some f, some o => some (mkEntry d c f o)
    | _, _, _, _ => none
  | _ => none

/-- `Vec<DatabaseEntry>` (commands.rs:129) -/
def readEntries : Json F → Option (List Entry)
  | .arr l => readAll readEntry l
  | _ => none

/-- `CompilationDatabase::from_str` (commands.rs:125-132) on the JSON value of the text -/
def Db.ofJson (j : Json F) : Option Db := (readEntries j).map Db.fromEntries

/-- A process to start: program, arguments and working directory -/
structure Command where
  program : Name
  args : List Name
  dir : Name
  deriving DecidableEq

/-- `program()` and `args()` (commands.rs:190-198) -/
def Entry.program (e : Entry) : Option Name := e.words.head?
def Entry.args (e : Entry) : List Name := e.words.drop 1

/-- worker.rs:128-141 `start_job`, up to the spawn; `none` is `NoProgram` -/
def startJob (e : Entry) : Option Command :=
  match e.program with
  | none => none
  | some p => some ⟨p, e.args, e.directory⟩

/-- trace/measure.rs:81-89: the command that measures a time trace -/
def traceCommand (clangpp : Name) (granularity : Option Name) (e : Entry) : Command :=
  ⟨clangpp, "-ftime-trace".toList :: ((granularity.map fun g => "-ftime-trace-granularity=".toList ++ g).toList ++ e.args), e.directory⟩

/-! ## Specification -/

/-- How an entry is written in JSON. -/
def IsEntry (j : Json F) (e : Entry) : Prop :=
  ∃ (d c f : String) (o : Option String),
    ((∃ l, j = .obj l ∧ (∀ kv ∈ l, kv.1 ∈ ["directory", "command", "file", "output"]) ∧
        Has l "directory" IsStr d ∧ Has l "command" IsStr c ∧ Has l "file" IsStr f ∧ May l "output" IsStr o) ∨
      ∃ last, j = .arr [.str d, .str c, .str f, last] ∧
        ((o = none ∧ last = .null) ∨ ∃ out, o = some out ∧ last = .str out)) ∧
    e.directory = d.toList ∧ e.file = f.toList ∧ e.output = o.map String.toList ∧
    (Shlex.Line e.words c.toList ∨ Shlex.Broken e.words c.toList)

/-! ## Proofs -/

theorem entry_words (e : Entry) (d c f : String) (o : Option String) :
    mkEntry d c f o = e ↔ e.directory = d.toList ∧ e.file = f.toList ∧ e.output = o.map String.toList ∧
      (Shlex.Line e.words c.toList ∨ Shlex.Broken e.words c.toList) := by
  have hw : e.words = Shlex.words c.toList ↔ Shlex.Line e.words c.toList ∨ Shlex.Broken e.words c.toList := by
    constructor
    · intro h; rw [h]; exact Shlex.c75_every_text _
    · rintro (h | h)
      · exact (Shlex.c75_words h).symm
      · exact (Shlex.c75_unclosed h).symm
  rw [← hw]
  obtain ⟨a, b, c', d'⟩ := e
  simp only [mkEntry, Entry.mk.injEq]
  constructor
  · rintro ⟨rfl, rfl, rfl, rfl⟩; exact ⟨rfl, rfl, rfl, rfl⟩
  · rintro ⟨rfl, rfl, rfl, rfl⟩; exact ⟨rfl, rfl, rfl, rfl⟩

theorem visit_all (known : List String) (l s : Entries F) :
    visit known [] [] l = some (s, []) ↔
      (∀ kv ∈ l, kv.1 ∈ known) ∧ (∀ k ∈ known, (occ l k).length ≤ 1) ∧ s = l.filter fun e => decide (e.1 ∈ known) := by
  rw [Verif.Trace.Ctf.visit_eq]
  split
  · rename_i h
    simp only [Option.some.injEq, Prod.mk.injEq, List.filter_eq_nil_iff]
    constructor
    · rintro ⟨rfl, h2⟩
      refine ⟨?_, h, rfl⟩
      intro kv hkv
      have := h2 kv hkv
      simpa using this
    · rintro ⟨h1, -, rfl⟩
      exact ⟨rfl, fun kv hkv => by simpa using h1 kv hkv⟩
  · rename_i h
    simp only [reduceCtorEq, false_iff]
    rintro ⟨-, h2, -⟩; exact h h2

theorem readEntry_iff (j : Json F) (e : Entry) : readEntry j = some e ↔ IsEntry j e := by
  have hE := fun (d c f : String) (o : Option String) => entry_words e d c f o
  constructor
  · intro h
    unfold readEntry at h
    split at h
    · rename_i l
      split at h
      · rename_i s hv
        obtain ⟨h1, h2, rfl⟩ := (visit_all entryFields l _).1 hv
        split at h
        · rename_i d c f o hd hc hf ho
          simp only [Option.some.injEq] at h
          rw [Verif.Trace.Ctf.required_iff readStr _ (Verif.Trace.Ctf.readStr_iff (F := F)) entryFields l _ (by decide) (h2 _ (by decide))] at hd hc hf
          rw [Verif.Trace.Ctf.optional_iff readStr _ (Verif.Trace.Ctf.readStr_iff (F := F)) entryFields l _ (by decide) (h2 _ (by decide)) rfl] at ho
          exact ⟨d, c, f, o, .inl ⟨l, rfl, h1, hd, hc, hf, ho⟩, (hE d c f o).1 h⟩
        · cases h
      · cases h
    · rename_i d' c' f' o'
      split at h
      · rename_i d c f o hd hc hf ho
        simp only [Option.some.injEq] at h
        rw [Verif.Trace.Ctf.readStr_iff] at hd hc hf
        unfold IsStr at hd hc hf
        subst hd hc hf
        refine ⟨d, c, f, o, .inr ⟨o', rfl, ?_⟩, (hE d c f o).1 h⟩
        cases o' with
        | null => simp only [readOpt, Option.some.injEq] at ho; exact .inl ⟨ho.symm, rfl⟩
        | str out => simp only [readOpt, readStr, Option.map_some, Option.some.injEq] at ho; exact .inr ⟨out, ho.symm, rfl⟩
        | _ => simp [readOpt, readStr] at ho
      · cases h
    · cases h
  · rintro ⟨d, c, f, o, h | h, hw⟩
    · obtain ⟨l, rfl, h1, hd, hc, hf, ho⟩ := h
      have h2 : ∀ k ∈ entryFields, (occ l k).length ≤ 1 := by
        intro k hk
        simp only [entryFields, List.mem_cons, List.not_mem_nil, or_false] at hk
        rcases hk with rfl | rfl | rfl | rfl
        · exact Verif.Trace.Ctf.has_le hd
        · exact Verif.Trace.Ctf.has_le hc
        · exact Verif.Trace.Ctf.has_le hf
        · exact Verif.Trace.Ctf.may_le ho
      have hv := (visit_all entryFields l _).2 ⟨h1, h2, rfl⟩
      rw [← Verif.Trace.Ctf.required_iff readStr _ (Verif.Trace.Ctf.readStr_iff (F := F)) entryFields l _ (by decide) (h2 _ (by decide))] at hd hc hf
      rw [← Verif.Trace.Ctf.optional_iff readStr _ (Verif.Trace.Ctf.readStr_iff (F := F)) entryFields l _ (by decide) (h2 _ (by decide)) rfl] at ho
      simp only [readEntry, hv, hd, hc, hf, ho, Option.some.injEq]
      exact (hE d c f o).2 hw
    · obtain ⟨last, rfl, h⟩ := h
      rcases h with ⟨rfl, rfl⟩ | ⟨out, rfl, rfl⟩
      · simp only [readEntry, readStr, readOpt, Option.some.injEq]
        exact (hE d c f none).2 hw
      · simp only [readEntry, readStr, readOpt, Option.map_some, Option.some.injEq]
        exact (hE d c f (some out)).2 hw

/-- **C75.** A compilation database is an array of entries, each with a directory, a command, a file and possibly an output,
all strings, and nothing else. -/
theorem c75_database_iff (j : Json F) (es : List Entry) :
    readEntries j = some es ↔ ∃ js, j = .arr js ∧ List.Forall₂ IsEntry js es := by
  unfold readEntries
  cases j with
  | arr l =>
    simp only [Verif.Trace.Ctf.readAll_iff, readEntry_iff, Json.arr.injEq]
    constructor
    · intro h; exact ⟨l, rfl, h⟩
    · rintro ⟨js, rfl, h⟩; exact h
  | _ => simp

/-- **C75.** The entry found for a file is the last one of the array for it, and its command is what its text spells. -/
theorem c75_lookup (js : List (Json F)) (db : Db) (h : Db.ofJson (.arr js) = some db) :
    ∃ es, List.Forall₂ IsEntry js es ∧ ∀ p, db.entry p = es.reverse.find? (fun e => samePath e.file p) := by
  unfold Db.ofJson at h
  rw [Option.map_eq_some_iff] at h
  obtain ⟨es, he, rfl⟩ := h
  obtain ⟨js', e, hf⟩ := (c75_database_iff _ es).1 he
  simp only [Json.arr.injEq] at e
  subst e
  exact ⟨es, hf, fun p => (c27_from_entries es p).1⟩

/-- **C75.** A single entry with another key makes the whole database unreadable, e.g. one that gives `arguments` instead of
`command` as the format allows. -/
theorem c75_unknown_key (js : List (Json F)) (l : Entries F) (hl : .obj l ∈ js) (k : String) (hk : k ∈ l.map (·.1))
    (hne : k ∉ ["directory", "command", "file", "output"]) : Db.ofJson (.arr js) = none := by
  unfold Db.ofJson
  cases he : readEntries (.arr js) with
  | none => rfl
  | some es =>
    exfalso
    obtain ⟨js', e, hf⟩ := (c75_database_iff _ es).1 he
    simp only [Json.arr.injEq] at e
    subst e
    obtain ⟨e, d, c, f, o, h, -⟩ := Verif.Trace.Ctf.forall₂_mem_left hf hl
    rcases h with ⟨l', e', h1, -⟩ | ⟨last, e', -⟩
    · simp only [Json.obj.injEq] at e'
      subst e'
      obtain ⟨kv, hkv, rfl⟩ := List.mem_map.1 hk
      exact hne (h1 kv hkv)
    · cases e'

/-- **C75.** The command of an entry runs its first word with the others as arguments, in its directory; a trace is measured
by the chosen clang++ instead, with the time trace options before the same arguments. -/
theorem c75_commands (e : Entry) (p : Name) (args : List Name) (hw : e.words = p :: args) (clangpp g : Name) :
    startJob e = some ⟨p, args, e.directory⟩ ∧
    traceCommand clangpp none e = ⟨clangpp, "-ftime-trace".toList :: args, e.directory⟩ ∧
    traceCommand clangpp (some g) e =
      ⟨clangpp, "-ftime-trace".toList :: ("-ftime-trace-granularity=".toList ++ g) :: args, e.directory⟩ := by
  simp [startJob, traceCommand, Entry.program, Entry.args, hw]

/-- **C75.** An entry has no program exactly when its command is made of blanks and comments, or starts with a word that is
never finished. -/
theorem c75_no_program (d c f : String) (o : Option String) :
    startJob (mkEntry d c f o) = none ↔ Shlex.Line [] c.toList ∨ Shlex.Broken [] c.toList := by
  have hs : startJob (mkEntry d c f o) = none ↔ Shlex.words c.toList = [] := by
    unfold startJob Entry.program mkEntry
    cases Shlex.words c.toList <;> simp
  rw [hs]
  constructor
  · intro h
    have := Shlex.c75_every_text c.toList
    rwa [h] at this
  · rintro (h | h)
    · exact Shlex.c75_words h
    · exact Shlex.c75_unclosed h

/-! ## Examples -/

def exDb : Json Nat := .arr [
  .obj [("directory", .str "/b"), ("command", .str "/usr/bin/c++ -DX=\"1 2\" -o a.o -c /s/a.cpp"), ("file", .str "/s/a.cpp")],
  .obj [("file", .str "/s/b.cpp"), ("output", .str "b.o"), ("directory", .str "/b"), ("command", .str "c++ -c /s/b.cpp")]]

theorem exDb_entries : readEntries exDb = some [
    ⟨"/b".toList, ["/usr/bin/c++", "-DX=1 2", "-o", "a.o", "-c", "/s/a.cpp"].map String.toList, "/s/a.cpp".toList, none⟩,
    ⟨"/b".toList, ["c++", "-c", "/s/b.cpp"].map String.toList, "/s/b.cpp".toList, some "b.o".toList⟩] := by
  have h1 : Shlex.words "/usr/bin/c++ -DX=\"1 2\" -o a.o -c /s/a.cpp".toList =
      ["/usr/bin/c++", "-DX=1 2", "-o", "a.o", "-c", "/s/a.cpp"].map String.toList := by decide +kernel
  have h2 : Shlex.words "c++ -c /s/b.cpp".toList = ["c++", "-c", "/s/b.cpp"].map String.toList := by decide +kernel
  simp [readEntries, exDb, readAll, readEntry, visit, entryFields, List.lookup, required, Verif.Trace.Ctf.optional, readStr,
    readOpt, mkEntry, -String.reduceToList, h1, h2]

/-- The example is read, and its first command is the expected one. -/
example : ∃ db e, Db.ofJson exDb = some db ∧ db.entry "/s/a.cpp".toList = some e ∧
    startJob e = some ⟨"/usr/bin/c++".toList, ["-DX=1 2", "-o", "a.o", "-c", "/s/a.cpp"].map String.toList, "/b".toList⟩ := by
  refine ⟨_, ⟨"/b".toList, ["/usr/bin/c++", "-DX=1 2", "-o", "a.o", "-c", "/s/a.cpp"].map String.toList, "/s/a.cpp".toList, none⟩,
    by rw [Db.ofJson, exDb_entries]; rfl, ?_, (c75_commands _ _ _ rfl [] []).1⟩
  rw [(c27_from_entries _ _).1]
  decide +kernel

/-- An entry with `arguments` spoils the database. -/
example : Db.ofJson (F := Nat) (.arr [.obj [("directory", .str "/b"), ("arguments", .arr [.str "c++", .str "a.cpp"]),
    ("file", .str "a.cpp")]]) = none :=
  c75_unknown_key _ _ List.mem_cons_self "arguments" (by simp) (by decide)

end Verif.Build
