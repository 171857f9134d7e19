/-
Displayed text.

The code measures text with the `unicode-width` crate and cuts it with the
`unicode-segmentation` crate.  Neither crate is modelled.  A text is a list of
glyphs (extended grapheme clusters); each glyph has a width given by an
arbitrary function, and the width of a text is the sum of the widths of its
glyphs.  The only facts assumed about the width function are that printable
ASCII characters and the ellipsis are one column wide; a structure field, not an
axiom, carries these assumptions, and `Metrics.unit` shows they can be met.
-/
import Mathlib.Data.List.Basic
import Mathlib.Algebra.BigOperators.Group.List.Basic

set_option autoImplicit false
set_option linter.unusedVariables false

namespace Verif.Display

/-- An extended grapheme cluster. -/
abbrev Glyph := List Char

/-- A text, cut into grapheme clusters
(`unicode_segmentation::UnicodeSegmentation::graphemes(true)`). -/
abbrev Text := List Glyph

/-- `…`, the glyph used at every elision. -/
def ellipsis : Glyph := ['…']

/-- `std::path::MAIN_SEPARATOR` on Unix. -/
def slash : Glyph := ['/']

/-- Text of a literal, one glyph per character. -/
def lit (s : String) : Text := s.toList.map fun c => [c]

/-- Terminal width of glyphs (`unicode_width::UnicodeWidthStr::width` applied to
one grapheme cluster). -/
structure Metrics where
  /-- number of terminal columns of a glyph -/
  w : Glyph → Nat
  /-- printable ASCII characters occupy one column -/
  ascii : ∀ c : Char, 0x20 ≤ c.toNat → c.toNat < 0x7f → w [c] = 1
  /-- the ellipsis occupies one column -/
  ell : w ellipsis = 1

/-- Width of a text: the sum of the widths of its glyphs. -/
def Metrics.width (M : Metrics) (t : Text) : Nat := (t.map M.w).sum

/-- The assumptions on widths can be met: every glyph one column wide. -/
def Metrics.unit : Metrics := ⟨fun _ => 1, fun _ _ _ => rfl, rfl⟩

/-- A less trivial font: one column per glyph, except that CJK ideographs take
two and combining marks take none. -/
def Metrics.wide : Metrics where
  w g := match g with
    | [c] => if c.toNat < 0x300 ∨ c = '…' then 1
             else if c.toNat < 0x370 then 0
             else if 0x4E00 ≤ c.toNat then 2 else 1
    | _ => 1
  ascii := by
    intro c h1 h2
    have : c.toNat < 0x300 ∨ c = '…' := Or.inl (by omega)
    simp [this]
  ell := by decide

variable (M : Metrics)

@[simp] theorem Metrics.width_nil : M.width [] = 0 := rfl
@[simp] theorem Metrics.width_cons (g : Glyph) (t : Text) :
    M.width (g :: t) = M.w g + M.width t := by simp [Metrics.width]
@[simp] theorem Metrics.width_append (a b : Text) :
    M.width (a ++ b) = M.width a + M.width b := by simp [Metrics.width]
@[simp] theorem Metrics.w_ellipsis : M.w ellipsis = 1 := M.ell
@[simp] theorem Metrics.w_slash : M.w slash = 1 :=
  M.ascii '/' (by decide) (by decide)
@[simp] theorem Metrics.width_reverse (a : Text) : M.width a.reverse = M.width a := by
  simp [Metrics.width]

/-- All characters printable ASCII (32..126). -/
def isAscii (s : String) : Bool := s.toList.all fun c => 0x20 ≤ c.toNat && c.toNat < 0x7f

theorem Metrics.width_lit (s : String) (h : isAscii s = true) :
    M.width (lit s) = s.toList.length := by
  unfold lit isAscii at *
  generalize s.toList = l at *
  induction l with
  | nil => rfl
  | cons c l ih =>
    simp only [List.all_cons, Bool.and_eq_true, decide_eq_true_eq] at h
    simp only [List.map_cons, Metrics.width_cons, List.length_cons]
    rw [M.ascii c h.1.1 h.1.2, ih (by simpa using h.2)]
    omega

theorem Metrics.width_take_le (t : Text) (n : Nat) : M.width (t.take n) ≤ M.width t := by
  conv_rhs => rw [← List.take_append_drop n t]
  rw [Metrics.width_append]; exact Nat.le_add_right _ _

theorem Metrics.width_drop_le (t : Text) (n : Nat) : M.width (t.drop n) ≤ M.width t := by
  conv_rhs => rw [← List.take_append_drop n t]
  rw [Metrics.width_append]; exact Nat.le_add_left _ _

end Verif.Display
