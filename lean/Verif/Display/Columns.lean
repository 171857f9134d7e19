/-
C68: what fits in the columns of the interactive tables
(src/ui/tui/trace/display.rs 727-800, 855-875; src/ui/tui/build/display.rs 30-65).
-/
import Verif.Display.Duration

set_option autoImplicit false
set_option linter.unusedVariables false
set_option linter.unusedSimpArgs false

namespace Verif.Display.Columns

open Verif.Display.Duration

/-! ## Durations -/

/-- `DURATION_WIDTH` (trace/display.rs 730). -/
def DURATION_WIDTH : Nat := 11

/-- The text that `format_duration` (trace/display.rs 683-687) makes of a duration, in microseconds. -/
def durationText (d : ℚ) : Option String := (displayDuration d).map fun toks => String.join (toks.map Tok.render)

theorem len_digits (n : Nat) : (toString n).length = (Nat.toDigits 10 n).length := by
  rw [← String.length_toList, Nat.toString_eq_repr, Nat.toList_repr]

theorem len_pos (n : Nat) : 1 ≤ (toString n).length := by
  rw [len_digits]; exact Nat.length_toDigits_pos

theorem len_le (n k : Nat) (hk : 0 < k) (h : n < 10 ^ k) : (toString n).length ≤ k := by
  rw [len_digits]; exact (Nat.length_toDigits_le_iff (by decide) hk).2 h

theorem len_pad2 (n : Nat) (h : n < 100) : (pad2 n true).length = 2 := by
  unfold pad2
  by_cases h10 : n < 10
  · have h1 := len_pos n
    have h2 := len_le n 1 (by decide) (by omega)
    simp only [h10, decide_true, Bool.and_true, if_true, String.length_append]
    have : ("0" : String).length = 1 := by decide
    omega
  · simp only [h10, decide_false, Bool.and_false, Bool.false_eq_true, if_false]
    have h2 := len_le n 2 (by decide) (by omega)
    have h3 : ¬ (toString n).length ≤ 1 := by
      rw [len_digits, Nat.length_toDigits_le_iff (by decide) (by decide)]; omega
    omega

theorem len_pad2' (n : Nat) : 1 ≤ (pad2 n false).length := by
  unfold pad2; simpa using len_pos n

theorem len_pad2_le (n k : Nat) (hk : 0 < k) (h : n < 10 ^ k) : (pad2 n false).length ≤ k := by
  unfold pad2; simpa using len_le n k hk h

theorem join_length (l : List String) : (String.join l).length = (l.map String.length).sum := by
  induction l with
  | nil => rfl
  | cons a l ih => rw [String.join_cons, String.length_append, ih]; simp

theorem raw_small (d v : ℚ) (u : String) (h : displayDuration d = some [.raw v u]) : d < 1000 ∧ v = d ∧ u = "µs" := by
  unfold displayDuration at h
  rw [impl] at h
  split at h
  · simp at h
  · split at h
    · simp at h
    · split at h
      · simp at h
      · split at h
        · simp at h
        · split at h
          · simp at h
          · rename_i hms
            simp only [Option.some.injEq, List.cons.injEq, Tok.raw.injEq, and_true] at h
            refine ⟨by simpa [ms] using hms, h.1.symm, h.2.symm⟩

theorem render_whole (n : Nat) (s : String) : (Tok.raw (n : ℚ) s).render = toString n ++ s := by
  have : toString (n : ℚ) = toString n := by
    show (if ((n : ℚ).den = 1) then toString (n : ℚ).num else _) = _
    rw [if_pos (Rat.den_natCast n), Rat.num_natCast]; rfl
  rw [Tok.render, this]

/-- **C68.** A duration of a whole number of microseconds (what clang measures) is shown, and its text fits in the 11
characters of a duration column exactly if it is shorter than 23:59:59.995. -/
theorem c68_durations_fit (n : Nat) :
    ∃ s, durationText n = some s ∧ (s.length ≤ DURATION_WIDTH ↔ n < 86399995000) := by
  obtain ⟨toks, v, hd, hs, hm, -, herr⟩ := displayDuration_spec (n : ℚ) (Nat.cast_nonneg n)
  refine ⟨String.join (toks.map Tok.render), by simp [durationText, hd], ?_⟩
  rw [join_length]
  rw [abs_le] at herr
  have l1 : ("d " : String).length = 2 := by decide
  have l2 : (":" : String).length = 1 := by decide
  have l3 : ("." : String).length = 1 := by decide
  have l4 : ("s" : String).length = 1 := by decide
  have l5 : ("ms" : String).length = 2 := by decide
  have l6 : ("" : String).length = 0 := by decide
  have l7 : ("µs" : String).length = 2 := by decide
  unfold DURATION_WIDTH
  simp only [List.map_map]
  have hday : 86399995000 ≤ n → ∃ a l, toks = .int a false "d " :: l := by
    intro h
    have ht : tDay ≤ (n : ℚ) := by
      have : (86399995000 : ℚ) ≤ n := by exact_mod_cast h
      simp only [tDay, hour, minute, sec, ms]; linarith
    unfold displayDuration at hd
    rw [impl, if_pos ht] at hd
    simp only [Option.map_eq_some_iff] at hd
    obtain ⟨l, -, e⟩ := hd
    exact ⟨_, _, e.symm⟩
  have hcents : ∀ c (pad : Bool) (s : String), (Tok.cents c pad s).render.length
      = (pad2 (c / 100) pad).length + 3 + s.length := by
    intro c pad s
    simp only [Tok.render, String.length_append, len_pad2 (c % 100) (by omega), l3]
  have hint : ∀ k (pad : Bool) (s : String), (Tok.int k pad s).render.length = (pad2 k pad).length + s.length := by
    intro k pad s
    simp only [Tok.render, String.length_append]
  cases hs with
  | micro h =>
    obtain ⟨h1, h2, -⟩ := raw_small _ _ _ hd
    have h1 : n < 1000 := by exact_mod_cast h1
    subst h2
    simp only [List.map_cons, List.map_nil, List.sum_cons, List.sum_nil, Function.comp, render_whole,
      String.length_append, l7]
    have := len_le n 3 (by decide) (by omega)
    omega
  | milli c h1 h2 =>
    have hn : n < 86399995000 := by
      by_contra hc
      obtain ⟨a, l, e⟩ := hday (by omega)
      cases e
    simp only [List.map_cons, List.map_nil, List.sum_cons, List.sum_nil, Function.comp, hcents, l5]
    have := len_pad2_le (c / 100) 3 (by decide) (by omega)
    omega
  | sec c h1 h2 =>
    have hn : n < 86399995000 := by
      by_contra hc
      obtain ⟨a, l, e⟩ := hday (by omega)
      cases e
    simp only [List.map_cons, List.map_nil, List.sum_cons, List.sum_nil, Function.comp, hcents, l4]
    have := len_pad2_le (c / 100) 2 (by decide) (by omega)
    omega
  | min m c h1 h2 h3 =>
    have hn : n < 86399995000 := by
      by_contra hc
      obtain ⟨a, l, e⟩ := hday (by omega)
      simp at e
    simp only [List.map_cons, List.map_nil, List.sum_cons, List.sum_nil, Function.comp, hcents, hint, l2, l6]
    have := len_pad2_le m 2 (by decide) (by omega)
    have := len_pad2 (c / 100) (by omega)
    omega
  | hour h m c h1 h2 h3 h4 =>
    have hn : n < 86399995000 := by
      by_contra hc
      obtain ⟨a, l, e⟩ := hday (by omega)
      simp at e
    simp only [List.map_cons, List.map_nil, List.sum_cons, List.sum_nil, Function.comp, hcents, hint, l2, l6]
    have := len_pad2_le h 2 (by decide) (by omega)
    have := len_pad2 m (by omega)
    have := len_pad2 (c / 100) (by omega)
    omega
  | day k h m c h1 h2 h3 h4 =>
    have hn : ¬ n < 86399995000 := by
      intro hc
      have e1 : (1 : ℚ) ≤ k := by exact_mod_cast h1
      have e2 : (0 : ℚ) ≤ h := Nat.cast_nonneg _
      have e3 : (0 : ℚ) ≤ m := Nat.cast_nonneg _
      have e4 : (0 : ℚ) ≤ c := Nat.cast_nonneg _
      have e5 : (n : ℚ) < 86399995000 := by exact_mod_cast hc
      linarith [herr.1, herr.2]
    simp only [List.map_cons, List.map_nil, List.sum_cons, List.sum_nil, Function.comp, hcents, hint, l1, l2, l6]
    have := len_pad2' k
    have := len_pad2 h (by omega)
    have := len_pad2 m (by omega)
    have := len_pad2 (c / 100) (by omega)
    omega

example : durationText 86399994999 = some "23:59:59.99" := by decide +kernel
example : durationText 86399995000 = some "1d 00:00:00.00" := by decide +kernel
example : durationText 999 = some "999µs" := by decide +kernel

/-! ## Widths of the columns -/

/-- `ProfileKind`. -/
inductive Kind where
  | hier | flat
  deriving DecidableEq

/-- `durations_scroll_width` (trace/display.rs 775-784). -/
def restWidth : Kind → Nat
  | .hier => DURATION_WIDTH + 5 + (DURATION_WIDTH + 4)
  | .flat => DURATION_WIDTH + 5 + 0

/-- `description_column_width` (trace/display.rs 774-786); `none` when the `u16` subtraction overflows, which panics in a
debug build. -/
def descWidth (k : Kind) (terminal : Nat) : Option Nat :=
  if restWidth k ≤ terminal then some (terminal - restWidth k) else none

/-- What a row of a table takes on the screen: its columns, with a separator of three characters between two columns
(cursive_table_view), and the scroll bar with its margin (two characters). -/
def rowWidth (cols : List Nat) : Nat := cols.sum + 3 * (cols.length - 1) + 2

/-- The columns of a profile (trace/display.rs 316-323, 536-563). -/
def profileCols (k : Kind) (desc : Nat) : List Nat :=
  match k with
  | .hier => [DURATION_WIDTH, DURATION_WIDTH, desc]
  | .flat => [DURATION_WIDTH, desc]

/-- The texts in the description column are described in `desc` characters (C35), with one more character in a
hierarchical profile: the `+` mark (trace/display.rs 878-905). -/
def descText (k : Kind) (desc : Nat) : Nat :=
  match k with
  | .hier => desc + 1
  | .flat => desc

/-- **C68.** On a terminal with at least 31 columns (16 for a flat profile), and only then, the width of the description
column is defined; a row whose description is written in full, mark included, then takes exactly the width of the
terminal. -/
theorem c68_profile_fits (k : Kind) (terminal : Nat) :
    (descWidth k terminal = none ↔ terminal < match k with
      | .hier => 31
      | .flat => 16) ∧
    ∀ w, descWidth k terminal = some w → rowWidth (profileCols k (descText k w)) = terminal := by
  have e : restWidth k = match k with
      | .hier => 31
      | .flat => 16 := by cases k <;> rfl
  rw [← e]
  unfold descWidth
  by_cases h : restWidth k ≤ terminal
  · rw [if_pos h]
    refine ⟨by simpa using h, fun w hw => ?_⟩
    simp only [Option.some.injEq] at hw
    cases k <;> simp only [restWidth, DURATION_WIDTH, profileCols, descText, rowWidth, List.sum_cons, List.sum_nil,
      List.length_cons, List.length_nil] at * <;> omega
  · rw [if_neg h]
    exact ⟨by simpa using h, fun w hw => by cases hw⟩

/-- `non_file_width` (build/display.rs 40-46). -/
def nonFile : Bool → Nat
  | true => 10 + 5 + (8 + 3)
  | false => 10 + 5

/-- `file_width` of the full-build profile (build/display.rs 40-47); `none` when the `usize` subtraction overflows. -/
def fileWidth (walltime : Bool) (terminal : Nat) : Option Nat :=
  if nonFile walltime ≤ terminal then some (terminal - nonFile walltime) else none

/-- The columns of the full-build profile (build/display.rs 50-66). -/
def buildCols (walltime : Bool) (file : Nat) : List Nat :=
  if walltime then [10, 8, file] else [10, file]

/-- **C68.** The same for the full-build profile: 15 columns are needed, 26 with times. -/
theorem c68_build_profile_fits (walltime : Bool) (terminal : Nat) :
    (fileWidth walltime terminal = none ↔ terminal < if walltime then 26 else 15) ∧
    ∀ w, fileWidth walltime terminal = some w → rowWidth (buildCols walltime w) = terminal := by
  have e : nonFile walltime = if walltime then 26 else 15 := by cases walltime <;> rfl
  rw [← e]
  unfold fileWidth
  by_cases h : nonFile walltime ≤ terminal
  · rw [if_pos h]
    refine ⟨by simpa using h, fun w hw => ?_⟩
    simp only [Option.some.injEq] at hw
    cases walltime <;> simp only [nonFile, buildCols, rowWidth, List.sum_cons, List.sum_nil, if_true,
      Bool.false_eq_true, if_false, List.length_cons, List.length_nil] at * <;> omega
  · rw [if_neg h]
    exact ⟨by simpa using h, fun w hw => by cases hw⟩

example : descWidth .hier 80 = some 49 ∧ descWidth .flat 80 = some 64 ∧ fileWidth true 80 = some 54 := by decide

/-! ## Footer -/

/-- Width of the help text `Press H for help.` -/
def HELP : Nat := 17

/-- `make_footer_view` (trace/display.rs 855-875), on the widths of the lines of the description of the trace; `none`: the
`expect` of line 860 fails because there is no line. -/
def footer (lines : List Nat) (terminal : Nat) : Option (List Nat) :=
  match lines.getLast? with
  | none => none
  | some last =>
    some (if last + 1 + HELP ≤ terminal then lines.dropLast ++ [last + 1 + HELP] else lines ++ [HELP])

/-- **C68.** If the description of the trace fits in the terminal (C34) and the terminal has at least 17 columns, the
footer fits; the help text is put on the last line if there is room, else on a line of its own, and nothing of the
description is lost. -/
theorem c68_footer_fits (lines : List Nat) (terminal : Nat) (hne : lines ≠ []) (hf : ∀ l ∈ lines, l ≤ terminal)
    (ht : HELP ≤ terminal) :
    ∃ out, footer lines terminal = some out ∧ (∀ l ∈ out, l ≤ terminal) ∧
      (out = lines ++ [HELP] ∨ ∃ first last, lines = first ++ [last] ∧ out = first ++ [last + 1 + HELP]) ∧
      ((∃ last, lines.getLast? = some last ∧ last + 1 + HELP ≤ terminal) ↔ out.length = lines.length) := by
  obtain ⟨first, last, rfl⟩ : ∃ first last, lines = first ++ [last] :=
    ⟨lines.dropLast, lines.getLast hne, (List.dropLast_append_getLast hne).symm⟩
  unfold footer
  simp only [List.getLast?_append, List.getLast?_singleton, Option.some_or, List.dropLast_concat]
  by_cases h : last + 1 + HELP ≤ terminal
  · rw [if_pos h]
    refine ⟨_, rfl, ?_, Or.inr ⟨first, last, rfl, rfl⟩, by simp [h]⟩
    intro l hl
    rcases List.mem_append.1 hl with hl | hl
    · exact hf l (by simp [hl])
    · simp only [List.mem_singleton] at hl; omega
  · rw [if_neg h]
    refine ⟨_, rfl, ?_, Or.inl rfl, by simp [h]⟩
    intro l hl
    rcases List.mem_append.1 hl with hl | hl
    · exact hf l hl
    · simp only [List.mem_singleton] at hl; omega

example : footer [70, 40] 80 = some [70, 58] ∧ footer [70, 70] 80 = some [70, 70, 17] := by decide

end Verif.Display.Columns
