/-
Model of src/ui/display/path.rs: path display in a bounded number of columns.
-/
import Verif.Display.Str

set_option autoImplicit false
set_option linter.unusedVariables false
set_option linter.unusedSimpArgs false

namespace Verif.Display

/-- A path component is a text.  src/ui/display/path.rs 203-208:
`root_component`. -/
def root : Text := [slash]

/-- src/ui/display/path.rs 97-147: the loop of `select_components`.
`n` is `num_components`, `rest` what remains of the double-ended iterator.
`none` is the underflow of `cols - (!is_last_component as usize)` (118). -/
def selectLoop (M : Metrics) (n : Nat) (rest : List Text) (cols af ab : Nat)
    (front full : Bool) : Option (Nat × Nat) :=
  match rest with
  | [] => some (af, ab)
  | c :: r =>
    let candidate := if front then c else (c :: r).getLast (by simp)
    let rest' := if front then r else (c :: r).dropLast
    let isLast : Bool := af + ab == n - 1
    let needSep : Bool := !(isLast || candidate == root)
    let width := M.width candidate + needSep.toNat
    if cols < (!isLast).toNat then none
    else
      let available := cols - (!isLast).toNat
      let fitting : Bool := decide (width ≤ available)
      let af' := if fitting && front then af + 1 else af
      let ab' := if fitting && !front then ab + 1 else ab
      let cols' := if fitting then cols - width else cols
      let front' := front ^^ !full
      if !fitting then
        if full then some (af', ab')
        else selectLoop M n rest' cols' af' ab' front' true
      else selectLoop M n rest' cols' af' ab' front' full
termination_by rest.length
decreasing_by all_goals (cases front <;> simp)

/-- src/ui/display/path.rs 82-149: `select_components`. -/
def selectComponents (M : Metrics) (comps : List Text) (cols : Nat) : Option (Nat × Nat) :=
  selectLoop M comps.length comps cols 0 0 false false

/-- src/ui/display/path.rs 152-200: `display_components`.  `none` is a failed
`expect` or `assert!`.  `String::pop` removes the last glyph here; at that point
the buffer is empty or ends with the separator, so this is the last `char`. -/
def displayComponents (comps : List Text) (af ab : Nat) : Option Text :=
  if comps.length < af then none
  else
    let buffer := (comps.take af).flatMap fun c => if c = root then c else c ++ [slash]
    if comps.length < af + ab then none
    else
      let elided := comps.length - (af + ab)
      let buffer := if elided > 0 then buffer ++ [ellipsis] else buffer.dropLast
      let back := (comps.drop (af + elided)).take ab
      some (buffer ++ back.flatMap fun c => slash :: c)

/-- src/ui/display/path.rs 227-233: front graphemes of `display_filename`:
`(accepted, remaining columns, what the iterator still holds)`; the first
grapheme that does not fit has left the iterator. -/
def takeFront (M : Metrics) : Text → Nat → Text × Nat × Text
  | [], cols => ([], cols, [])
  | g :: t, cols =>
    if M.w g ≤ cols then
      let (a, c, r) := takeFront M t (cols - M.w g)
      (g :: a, c, r)
    else ([], cols, t)

/-- src/ui/display/path.rs 241-250: back graphemes of `display_filename`, as a
reversed list, from the reversed iterator. -/
def takeBack (M : Metrics) : Text → Nat → Text
  | [], _ => []
  | g :: t, cols => if M.w g ≤ cols then g :: takeBack M t (cols - M.w g) else []

/-- src/ui/display/path.rs 211-257: `display_filename`; `none` is a failure of
the `debug_assert!` (215). -/
def displayFilename (M : Metrics) (name : Text) (cols : Nat) : Option Text :=
  if ¬ (3 ≤ cols ∧ cols < M.width name + 2) then none
  else
    let cols := cols - 3
    let maxFront := cols / 2
    let (fr, remFront, rest) := takeFront M name maxFront
    let cols := cols - (maxFront - remFront)
    let bk := takeBack M rest.reverse cols
    some ([ellipsis, slash] ++ fr ++ [ellipsis] ++ bk.reverse)

/-- src/ui/display/path.rs 76: `MIN_FILENAME_WIDTH`. -/
def minFilenameWidth : Nat := 15

/-- src/ui/display/path.rs 35-69: `truncate_path_iter`, with debug assertions
on; `none` is a panic. -/
def truncatePath (M : Metrics) (comps : List Text) (cols : Nat) : Option Text :=
  if cols = 0 then none
  else
    match selectComponents M comps cols with
    | none => none
    | some (af, ab) =>
      let result :=
        if ab > 0 then displayComponents comps af ab
        else if cols ≥ minFilenameWidth + 2 then
          match comps.getLast? with
          | none => none
          | some name => displayFilename M name cols
        else some [ellipsis]
      match result with
      | none => none
      | some r => if M.width r ≤ cols then some r else none

/-! ### Specification -/

/-- How a path is normally written: components separated by `/`, the root being
a lone `/` without separator after it. -/
def writePath : List Text → Text
  | [] => []
  | [c] => c
  | c :: d :: cs => (if c = root then c else c ++ [slash]) ++ writePath (d :: cs)

/-- Components of an actual path: only the first one can be the root. -/
def ValidPath (comps : List Text) : Prop := ∀ c ∈ comps.tail, c ≠ root

end Verif.Display
