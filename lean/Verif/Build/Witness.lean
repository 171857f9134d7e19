import Verif.Build.Database
import Verif.Build.WallTime
import Verif.Build.Clang
import Verif.Build.ProfileCsv
import Verif.Build.Unit
import Verif.Build.DatabaseJson
import Verif.Build.JsonFiles
import Verif.Trace.Witness
set_option autoImplicit false
set_option linter.unusedSimpArgs false

/-! # Theorems of C28-C30, C70, C75, C76, C78 and C79 applied to concrete cases -/
namespace Verif.Build

/-- Two sources, one of them newer than the product. -/
def wFs : Fs := ⟨fun p => if p = "out".toList then .ok 5 else if p = dbLocation then .ok 3
  else if p = "a".toList then .ok 4 else if p = "b".toList then .ok 9 else .error .notFound, 7⟩

example : productFreshness wFs ["a".toList, "b".toList] "out".toList = productFreshness wFs ["b".toList, "a".toList] "out".toList :=
  c28_order_irrelevant wFs _ _ _ (by simp [or_comm]) (by
    intro i hi
    simp only [List.mem_cons, List.not_mem_nil, or_false] at hi
    rcases hi with rfl | rfl
    · exact ⟨4, rfl⟩
    · exact ⟨9, rfl⟩)

example := c28_profile [⟨[], [], "a".toList, none⟩, ⟨[], [], "b".toList, none⟩] wFs "out".toList (by
  intro e he e' he' h
  simp only [List.mem_cons, List.not_mem_nil, or_false] at he he'
  rcases he with rfl | rfl <;> rcases he' with rfl | rfl <;> first | rfl | exact absurd h (by decide))

def wEntry : Entry :=
  ⟨"/build".toList, ["cc".toList, "-c".toList, "-o".toList, "obj/a.o".toList, "a.cpp".toList], "a.cpp".toList, none⟩

example := c29_is_join wEntry "obj/a.o".toList rfl (OutputArg.mk "cc".toList ["-c".toList] _ _ (by decide)) (by decide) (by decide)

example := c30_whole_seconds 86400 (by norm_num)

/-- A compilation of 1.5 s. -/
example : ∃ d', wallTime (storedTime (some 1500000000)) = some (.ok d') ∧
    2 ^ 22 * d' ≤ 2 ^ 22 * 1500000000 + 1500000000 + 2 ^ 22 * 34 := by
  obtain ⟨d', h⟩ := c30_written_times_valid 1500000000 (by decide)
  exact ⟨d', h, (c30_written_accuracy _ (by decide) d' h).1⟩

example : ∃ (db : Db) (es : List Entry), Db.ofJson exDb = some db ∧ es.length = 2 ∧
    ∀ p, db.entry p = es.reverse.find? (fun e => samePath e.file p) := by
  have h : Db.ofJson exDb = some (Db.fromEntries [
    ⟨"/b".toList, ["/usr/bin/c++", "-DX=1 2", "-o", "a.o", "-c", "/s/a.cpp"].map String.toList, "/s/a.cpp".toList, none⟩,
    ⟨"/b".toList, ["c++", "-c", "/s/b.cpp"].map String.toList, "/s/b.cpp".toList, some "b.o".toList⟩]) := by
    rw [Db.ofJson, exDb_entries]; rfl
  obtain ⟨es, h1, h2⟩ := c75_lookup _ _ h
  exact ⟨_, es, h, h1.length_eq.symm, h2⟩

theorem good_b : GoodNames ["b".toList] := by simp [GoodNames, Verif.Intern.ProperName]

example := c76_selected_iff exTree 40 ["b".toList] good_b exB [exEntry "/s/a.cpp".toList] "/s/a.cpp".toList
  (by decide +kernel) (by decide +kernel)

/-- A relative path in the database is never found again. -/
example := c76_relative_violated exTree 40 ["b".toList] [exEntry "../s/a.cpp".toList] (exEntry "../s/a.cpp".toList) (by decide +kernel)
  "../s/a.cpp".toList

end Verif.Build

namespace Verif.Build.Clang

example (r : Run) := c70_accepted Char.isDigit ascii_digits r
example (r : Run) (v : Nat) := c70_ancient Char.isDigit ascii_digits r v
example (r : Run) (line : List Char) := c70_unexpected Char.isDigit ascii_digits r line

example : findClangpp Char.isDigit (.output true (some ("Ubuntu ".toList ++ "clang version ".toList ++ "14".toList ++
    '.' :: '0' :: ".0-1ubuntu1\n".toList))) = .ok () :=
  (c70_usual Char.isDigit ascii_digits "Ubuntu ".toList ".0-1ubuntu1\n".toList "14".toList '0' 14 (by decide) (by decide +kernel)
    (by norm_num) (by decide) (by decide) (by
      intro h
      have := h.length_le
      revert this
      decide)).trans (if_pos (by decide))

end Verif.Build.Clang

namespace Verif.Build.Csv

/-- A row with a delimiter, a quote and a line ending, an empty row of one field, and an ordinary row. -/
def wRows : List (List Text) := [["a,\"b".toList, "c\n".toList], [[]], ["1".toList, "2".toList]]

example : readRows (writeRows wRows) = wRows := c78_records_roundtrip wRows (by decide) (by decide +kernel)
example (p : Text) (hp : p <+: writeRows wRows) := c78_records_prefix wRows (by decide) (by decide +kernel) p hp

end Verif.Build.Csv

namespace Verif.Build.ProfileCsv

def wUnits : List UnitProfile := [⟨"../a,\"b\".cpp".toList, 1234, some exTime⟩, ⟨"c\n.cpp".toList, 0, none⟩, ⟨[], 7, some .nan⟩]

theorem wUnits_times : GoodTimes exPrint exParse wUnits := by
  intro u hu x hx
  simp only [wUnits, List.mem_cons, List.not_mem_nil, or_false] at hu
  rcases hu with rfl | rfl | rfl
  · cases hx; exact ⟨by decide, by decide⟩
  · cases hx
  · cases hx; exact ⟨by decide, by decide⟩

/-- The file cut in the middle of its last line: two units are read. -/
example : ∃ p vs, p <+: writeProfile exPrint wUnits ∧ load exParse p = some vs ∧ vs.length = 2 ∧
    (vs <+: wUnits ∨ ∃ done u rest v, wUnits = done ++ u :: rest ∧ vs = done ++ [v] ∧ v.path = u.path ∧ v.rss = u.rss) := by
  have hp : "file,max_rss,time\n\"../a,\"\"b\"\".cpp\",1234,12.5\n\"c\n.cpp\",0,\n".toList <+: writeProfile exPrint wUnits := by
    decide +kernel
  have h2 : (load exParse "file,max_rss,time\n\"../a,\"\"b\"\".cpp\",1234,12.5\n\"c\n.cpp\",0,\n".toList).map List.length = some 2 := by
    decide +kernel
  obtain ⟨vs, hv, hl⟩ := Option.map_eq_some_iff.1 h2
  refine ⟨_, vs, hp, hv, hl, ?_⟩
  rcases c78_prefix exPrint exParse wUnits vs (by simp [wUnits]) wUnits_times _ hp hv with h | ⟨d, u, r, v, h1, h2, h3, h4, -⟩
  · exact .inl h
  · exact .inr ⟨d, u, r, v, h1, h2, h3, h4⟩

end Verif.Build.ProfileCsv

namespace Verif.Build.JsonFiles
open Verif.Trace Verif.Trace.Ctf Verif.Trace.Ctf.Text

example (cc : CharClass) (b : ByteArray) := c79_trace_iff (cc := cc) (F := Nat) (tmin := 0) (cast := exCast) (dec := fun _ => none)
  (by decide) Nat.zero_le b
example (cc : CharClass) (b : ByteArray) := c79_trace_panic_iff (cc := cc) (F := Nat) (tmin := 0) (cast := exCast)
  (dec := fun _ => none) (by decide) Nat.zero_le b

end Verif.Build.JsonFiles
