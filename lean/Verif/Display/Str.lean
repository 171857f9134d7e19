/-
C31: `display_string` (src/ui/display/mod.rs).
-/
import Verif.Display.Text

set_option autoImplicit false
set_option linter.unusedVariables false
set_option linter.unusedSimpArgs false

namespace Verif.Display

/-- src/ui/display/mod.rs 13-40: `DisplayConfig`. -/
inductive Config where
  | singleLine (maxCols : Nat)
  | multiLine (totCols headerCols trailerCols : Nat)
deriving DecidableEq

/-- src/ui/display/mod.rs 65-74 and 83-92: the loop
`for (offset, grapheme) in ... { if cols + grapheme.width() <= max {..} else break }`.
`cols` and `n` are the columns and glyphs accepted so far. -/
def scan (M : Metrics) (max : Nat) : Text → (cols n : Nat) → Nat × Nat
  | [], cols, n => (cols, n)
  | g :: t, cols, n =>
    if cols + M.w g ≤ max then scan M max t (cols + M.w g) (n + 1) else (cols, n)

/-- src/ui/display/mod.rs 44-97: `display_string`.  `none` is the failure of
`assert!(max_cols >= 1)`.  Simplifications: byte offsets into the string are
glyph offsets here; output errors are not modelled; the `debug_assert!` about
line feeds (57) is dropped. -/
def displayString (M : Metrics) (input : Text) : Config → Option Text
  | .multiLine _ _ _ => some input
  | .singleLine maxCols =>
    if M.width input ≤ maxCols then some input
    else if maxCols < 1 then none
    else
      let maxHeader := (maxCols - 1) / 2
      let (headerCols, headerEnd) := scan M maxHeader input 0 0
      let maxTrailer := maxCols - 1 - headerCols
      let (_, trailerLen) := scan M maxTrailer input.reverse 0 0
      let trailerStart := input.length - trailerLen
      some (input.take headerEnd ++ [ellipsis] ++ input.drop trailerStart)

/-- What the scan returns: the number of glyphs of a prefix that fits and that
cannot be extended. -/
theorem scan_spec (M : Metrics) (max : Nat) (t : Text) (cols n : Nat) (hc : cols ≤ max) :
    ∃ k, k ≤ t.length ∧ scan M max t cols n = (cols + M.width (t.take k), n + k) ∧
      cols + M.width (t.take k) ≤ max ∧
      (∀ g, t[k]? = some g → max < cols + M.width (t.take k) + M.w g) := by
  induction t generalizing cols n with
  | nil => exact ⟨0, by simp, by simp [scan], by simpa using hc, by simp⟩
  | cons g t ih =>
    unfold scan
    by_cases h : cols + M.w g ≤ max
    · rw [if_pos h]
      obtain ⟨k, hk, he, hle, hmax⟩ := ih (cols + M.w g) (n + 1) h
      refine ⟨k + 1, by simpa using hk, ?_, ?_, ?_⟩
      · rw [he]; simp only [List.take_succ_cons, Metrics.width_cons]
        exact Prod.ext (by simp only; omega) (by simp only; omega)
      · simp only [List.take_succ_cons, Metrics.width_cons]; omega
      · intro g' hg'
        simp only [List.getElem?_cons_succ] at hg'
        have := hmax g' hg'
        simp only [List.take_succ_cons, Metrics.width_cons]; omega
    · rw [if_neg h]
      refine ⟨0, by simp, by simp, by simpa using hc, ?_⟩
      intro g' hg'
      simp at hg'; subst hg'
      simp; omega

/-- C31. For every text, font and width of at least one column: the call
succeeds, the output is at most that wide, text that fits is unchanged, and
otherwise the text splits as prefix, non-empty middle and suffix, where exactly
the middle is replaced by one ellipsis; the prefix takes at most half of the
available columns, and both prefix and suffix are as long as they can be. -/
theorem displayString_spec (M : Metrics) (input : Text) (maxCols : Nat) (h : 1 ≤ maxCols) :
    ∃ out, displayString M input (.singleLine maxCols) = some out ∧
      M.width out ≤ maxCols ∧
      (M.width input ≤ maxCols → out = input) ∧
      (maxCols < M.width input →
        ∃ pre mid suf, input = pre ++ mid ++ suf ∧ mid ≠ [] ∧
          out = pre ++ [ellipsis] ++ suf ∧
          2 * M.width pre ≤ maxCols - 1 ∧
          (∀ g, mid.head? = some g → maxCols - 1 < 2 * (M.width pre + M.w g)) ∧
          (∀ g, mid.getLast? = some g → maxCols < M.width out + M.w g)) := by
  by_cases hw : M.width input ≤ maxCols
  · exact ⟨input, by simp [displayString, hw], hw, fun _ => rfl, fun h' => by omega⟩
  · obtain ⟨k, hk, he, hle, hmax⟩ := scan_spec M ((maxCols - 1) / 2) input 0 0 (Nat.zero_le _)
    obtain ⟨j, hj, he', hle', hmax'⟩ :=
      scan_spec M (maxCols - 1 - M.width (input.take k)) input.reverse 0 0 (Nat.zero_le _)
    simp only [Nat.zero_add] at he hle hmax he' hle' hmax'
    rw [List.length_reverse] at hj
    have hsuf : M.width (input.drop (input.length - j)) = M.width (input.reverse.take j) := by
      rw [List.take_reverse, Metrics.width_reverse]
    -- the prefix and suffix do not cover the input
    have hlt : k < input.length - j := by
      by_contra hcon
      have hcov : M.width input ≤ M.width (input.take k) + M.width (input.drop (input.length - j)) := by
        have h1 : M.width (input.drop k) ≤ M.width (input.drop (input.length - j)) := by
          have : input.drop k = (input.drop (input.length - j)).drop (k - (input.length - j)) := by
            rw [List.drop_drop]; congr 1; omega
          rw [this]; exact M.width_drop_le _ _
        have h2 : M.width input = M.width (input.take k) + M.width (input.drop k) := by
          conv_lhs => rw [← List.take_append_drop k input]
          rw [Metrics.width_append]
        omega
      omega
    refine ⟨input.take k ++ [ellipsis] ++ input.drop (input.length - j), ?_, ?_, fun h' => absurd h' hw, fun _ => ?_⟩
    · simp only [displayString, if_neg hw, if_neg (show ¬ maxCols < 1 by omega), he, he']
    · simp only [Metrics.width_append, Metrics.width_cons, Metrics.w_ellipsis, Metrics.width_nil]
      omega
    · refine ⟨input.take k, (input.drop k).take (input.length - j - k), input.drop (input.length - j),
        ?_, ?_, rfl, by omega, ?_, ?_⟩
      · rw [List.append_assoc]
        conv_lhs => rw [← List.take_append_drop k input]
        congr 1
        conv_lhs => rw [← List.take_append_drop (input.length - j - k) (input.drop k)]
        congr 1
        rw [List.drop_drop]; congr 1; omega
      · intro hnil
        have := congrArg List.length hnil
        simp only [List.length_take, List.length_drop, List.length_nil] at this
        omega
      · intro g hg
        have : input[k]? = some g := by
          rw [← hg, List.head?_eq_getElem?, List.getElem?_take_of_lt (by omega), List.getElem?_drop]
          simp
        have := hmax g this
        omega
      · intro g hg
        have : input.reverse[j]? = some g := by
          rw [List.getElem?_reverse (by omega), ← hg, List.getLast?_eq_getElem?,
            List.getElem?_take_of_lt (by simp only [List.length_take, List.length_drop]; omega),
            List.getElem?_drop]
          congr 1
          simp only [List.length_take, List.length_drop]; omega
        have := hmax' g this
        simp only [Metrics.width_append, Metrics.width_cons, Metrics.w_ellipsis, Metrics.width_nil]
        omega

/-- C31, other cases: with no column at all, text of positive width makes the
call fail instead of overflowing; multi-line mode never alters the text. -/
theorem displayString_edges (M : Metrics) (input : Text) :
    (displayString M input (.singleLine 0) = none ↔ 0 < M.width input) ∧
    (∀ a b c, displayString M input (.multiLine a b c) = some input) := by
  refine ⟨?_, fun _ _ _ => rfl⟩
  unfold displayString
  by_cases h : M.width input ≤ 0
  · simp only [h, if_true]; simp; omega
  · simp; omega

-- the hypotheses are met by a text with wide and zero-width glyphs
example : displayString .wide (lit "日本語の長い文字列です") (.singleLine 8)
    = some (lit "日…列です") := by decide +kernel
example : displayString .unit (lit "Coucou, tu veux voir mon string ?") (.singleLine 5)
    = some (lit "Co… ?") := by decide +kernel

end Verif.Display
