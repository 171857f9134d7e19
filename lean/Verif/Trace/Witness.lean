import Verif.Trace.Props
import Verif.Trace.Args
import Verif.Trace.ArgParse
import Verif.Trace.JsonDoc
import Verif.Trace.JsonWrite
set_option autoImplicit false
set_option linter.unusedSimpArgs false

/-! # Theorems of C07-C13 and C51 applied to concrete documents -/
namespace Verif.Trace

example : ∃ tr, fromDoc exCc 0 exDoc = .ok tr ∧ tr.globals ≠ [] ∧ tr.pid ≠ none := by
  obtain ⟨tr, h⟩ := exDoc_ok
  obtain ⟨h1, -⟩ := c07_globals_kept h
  obtain ⟨p, h2, h3, h4⟩ := c08_one_pid h
  refine ⟨tr, h, ?_, ?_⟩
  · intro e
    rw [e] at h1
    have : exDoc.events.filter isGlobal = [] := by simpa using h1
    exact absurd this (by decide)
  · have hp : (7 : Int) = p := h3 7 (by decide)
    rw [h4, ← hp]; decide

example : ∃ tr, fromDoc exCc 0 exDoc = .ok tr ∧ ∀ ev ∈ exDoc.events,
    isActivity ev ∨ isGlobal ev ∨ processNameOf ev ≠ [] ∨ threadNameOf ev ≠ [] := by
  obtain ⟨tr, h⟩ := exDoc_ok
  exact ⟨tr, h, fun ev hev => c07_nothing_dropped h ev hev⟩

example : ∀ tr, fromDoc exCc 0 ⟨exEvents.take 3, true, []⟩ ≠ .ok tr :=
  c09_missing_process_name exCc 0 ⟨exEvents.take 3, true, []⟩ (by decide)

theorem two_pids : fromDoc exCc 0 ⟨exEvents ++ [.m (.processName 9 "clang" [] (some 9)
    ⟨some [], some 0, none⟩)], true, []⟩ = .error (.inconsistentPid 7 9) := by
  simp [fromDoc, exEvents, run, step, mergePid, parseStat, parseActivity, activities,
      List.lookup, parseDetailArg, parseEmptyArgs, Tree.insert, Tree.scan, init, Tree.empty,
      parseGlobal, parseGlobalArgs, JVal.asU64, JVal.asF64, stripPrefix, parseProcessName,
      Tree.build, Tree.rootScan, beginningOfTime, inferFromDetail, Tree.nonZero]

example := c08_inconsistent two_pids

/-- The two keys of a statistic, in either order. -/
example := c12_args_order_independent (F := Int) [("avg ms", .num none 3), ("count", .num (some 2) 2)]
  [("count", .num (some 2) 2), ("avg ms", .num none 3)] (by simp [KeysDistinct]) (.swap _ _ _)

example := c11_order_independent (F := Int) exCc "Source" [("detail", .str "/a.h"), ("other", .str "x")]
  [("other", .str "x"), ("detail", .str "/a.h")] (.swap _ _ _)

example : [("other", JVal.str (F := Int) "x")] ≠ [] :=
  (c11_unexpected_keys (F := Int) [("detail", .str "/a.h"), ("other", .str "x")] [("other", .str "x")]
    (by simp [KeysDistinct]) (by rfl)).2

example := c12_unexpected_keys (F := Int) [("count", .num (some 2) 2), ("other", .str "x")] none none
  [("other", .str "x")] (by rfl)

example := c12_no_args (F := Int) ⟨4, 5, 0, some "Total Frontend", none, none, none, none⟩ 6 none none rfl

/-- An accepted activity with an absolute path. -/
theorem source_ok : ∃ a, parseActivity (F := Int) exCc "Source" (some [("detail", .str "/a.h")]) = .ok a ∧
    a.argType = .filePathOrModule ∧ a.detail = some "/a.h" :=
  ⟨_, ((c11_known_accept_iff exCc "Source" .filePathOrModule (by decide) _ (by decide)).1).2 ⟨"/a.h", rfl⟩, rfl, rfl⟩

example : ∃ a, parseActivity (F := Int) exCc "Source" (some [("detail", .str "/a.h")]) = .ok a ∧
    (parseArg (K := Nat) (fun _ => .err) (fun _ => none) a.argType a.detail ≠ .error .panicMissingDetail) := by
  obtain ⟨a, h, -⟩ := source_ok
  exact ⟨a, h, c51_detail_present h _ _⟩

example : ∃ a, parseActivity (F := Int) exCc "Source" (some [("detail", .str "/a.h")]) = .ok a ∧
    ((∃ p, parseArg (K := Nat) (fun _ => .err) (fun _ => none) a.argType a.detail = .ok p) ∨
      parseArg (K := Nat) (fun _ => .err) (fun _ => none) a.argType a.detail = .error .badEntity ∨
      ∃ s, parseArg (K := Nat) (fun _ => .err) (fun _ => none) a.argType a.detail = .error (.unexpectedLoopName s)) := by
  obtain ⟨a, h, -, hd⟩ := source_ok
  refine ⟨a, h, c51_no_panic_when h (fun _ => .err) (fun _ => none) (by simp) ?_⟩
  intro _ s hs _
  rw [hd] at hs
  cases hs
  decide

example : ∃ a, parseActivity (F := Int) exCc "Source" (some [("detail", .str "./a.h")]) = .ok a ∧
    parseArg (K := Nat) (fun _ => .err) (fun _ => none) a.argType a.detail = .error .panicRelativePath := by
  have h := ((c11_known_accept_iff (F := Int) exCc "Source" .filePathOrModule (by decide)
    (some [("detail", .str "./a.h")]) (by decide)).1).2 ⟨"./a.h", rfl⟩
  refine ⟨_, h, (c51_panic_iff h _ _).2 "./a.h" rfl rfl (by decide) ?_⟩
  rintro ⟨r, hr⟩
  have := congrArg (fun s => s.toList.head?) hr
  simp at this

example := c51_symbol_kept (K := Nat) (fun _ => .err) (fun _ => none) (by simp) "(foo)"

end Verif.Trace

/-! # Theorems of C74 and C79 applied to concrete documents -/
namespace Verif.Trace.Ctf

theorem exJson_loads (cc : CharClass) : ∃ tr, load cc 0 exCast exJson = some (.ok tr) := by
  obtain ⟨tr, ht⟩ := (c58_accept_iff cc (by decide) Nat.zero_le
    ⟨exEvs, true, [("beginningOfTime", .num (some 3) 3)]⟩ (exEvs_keys _ fun _ h => h)).2
    ⟨rfl, by intro v hv; simp [List.lookup] at hv; exact ⟨_, _, hv.symm⟩, exEvs_good, by decide⟩
  exact ⟨tr, by rw [load, exJson_doc, Option.map_some, ht]⟩

example (cc : CharClass) : ∃ l evs, exJson = .obj l ∧ Has l "traceEvents" (IsEvents exCast) evs ∧ Header exCast l ∧
    GoodEvents evs ∧ evs.flatMap processNameOf ≠ [] :=
  (c74_accept_iff cc (by decide) Nat.zero_le exCast exJson).1 (exJson_loads cc)

example (cc : CharClass) : ∃ tr js evs stats, load cc 0 exCast exJson = some (.ok tr) ∧
    List.Forall₂ (Reads exCast) js evs ∧ List.Forall₂ RecordsActivity (evs.filter isActivity) stats ∧
    Tree.load 0 stats = .ok tr.tree := by
  obtain ⟨tr, h⟩ := exJson_loads cc
  obtain ⟨l, js, evs, stats, -, -, h1, h2, h3, -⟩ := c74_activities h
  exact ⟨tr, js, evs, stats, h, h1, h2, h3⟩

example (cc : CharClass) : ∃ tr, load cc 0 exCast exJson = some (.ok tr) ∧ tr.beginningOfTime = some 3 := by
  obtain ⟨tr, h⟩ := exJson_loads cc
  exact ⟨tr, h, (c74_origin h 3).2 ⟨.num (.nat 3), by simp [occ], .inr ⟨3, .inl ⟨3, rfl, rfl⟩, rfl⟩⟩⟩

/-- One event without a time. -/
example (cc : CharClass) : load cc 0 exCast (.obj [("traceEvents", .arr [.obj [("ph", .str "X")]])]) = none := by
  refine c74_one_bad_event cc 0 exCast _ [.obj [("ph", .str "X")]] (by simp [occ]) (.obj [("ph", .str "X")]) (by simp) ?_
  intro ev h
  have := (c74_reads exCast _ ev).2 h
  simp [readEvent, tagged, readDuration, durFields, visit, List.lookup, required, readComplete] at this

/-- Two lists of events. -/
example (cc : CharClass) : load cc 0 exCast (.obj [("traceEvents", .arr []), ("traceEvents", .arr [])]) = none :=
  c74_twice cc 0 exCast _ "traceEvents" (by decide) (by decide)

end Verif.Trace.Ctf

namespace Verif.Trace.Ctf.Text

theorem small_text : ∃ j, parse same "{ \"a\": [1] }".toList = some j ∧ ∀ n, j ≠ .num n := by
  have h : (parse same "{ \"a\": [1] }".toList).map tokens = some ["obj", "a", "arr", "nat", "1", "end", "end"] := by
    decide +kernel
  obtain ⟨j, hj, ht⟩ := Option.map_eq_some_iff.1 h
  refine ⟨j, hj, ?_⟩
  rintro n rfl
  cases n <;> simp [tokens] at ht

/-- Every cut of this text is refused, but for the final blank that it does not have. -/
example : ∃ j, parse same "{ \"a\": [1] }".toList = some j ∧
    ∀ p q, "{ \"a\": [1] }".toList = p ++ q → parse same p = none ∨ (parse same p = some j ∧ Blank q) := by
  obtain ⟨j, hj, hn⟩ := small_text
  exact ⟨j, hj, fun p q e => c79_cut same _ p q j hn hj e⟩

example : ∃ j, IsText same j "{ \"a\": [1] }".toList ∧ ∀ j', IsText same j' "{ \"a\": [1] }".toList → j = j' := by
  obtain ⟨j, hj, hn⟩ := small_text
  exact ⟨j, (c79_reads same _ j).1 hj, fun j' h' => c79_unambiguous same _ j j' ((c79_reads same _ j).1 hj) h'⟩

end Verif.Trace.Ctf.Text
