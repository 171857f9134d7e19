/-
C65: outside the fragment of C63, the display of an entity may be rejected by the parser,
or be read as another entity.
-/
import Verif.Cpp.DisplayMain
import Verif.Cpp.GrammarFacts

set_option autoImplicit false
set_option linter.unusedVariables false

namespace Verif.Cpp

/-- The entity that a text is read as. -/
def readAs (s : String) : Option (Ast .ty) :=
  match parseEntity s.toList with
  | .ok [] (some a) => some a
  | _ => none

/-- The display of the entity that a text is read as. -/
def showAs (s : String) (r : Nat) : Option (List Char) := (readAs s).map fun a => Entity.display (some a) r

/-- The number of nested unary operators, for telling entities apart. -/
def Ast.minuses : {s : S} → Ast s → Nat
  | _, .ty _ _ s _ => s.minuses
  | _, .stId i => i.minuses
  | _, .idExpr _ u => u.minuses
  | _, .decltype v => v.minuses
  | _, .value h l => h.minuses + l.minuses
  | _, .hUnary _ v => v.minuses + 1
  | _, .cons a l => a.minuses + l.minuses
  | _, .aBinary _ v => v.minuses
  | _, _ => 0

theorem readAs_eq {s : String} {a : Ast .ty} (h : readAs s = some a) : parseEntity s.toList = .ok [] (some a) := by
  unfold readAs at h
  split at h
  · rename_i b e; rw [e]; cases h; rfl
  · cases h

/-- **C65.** A function whose only parameter is an ellipsis is read, but its display is not. -/
theorem c65_ellipsis : ∃ a, parseEntity "f(...)".toList = .ok [] (some a) ∧
    ∀ r, depth a < r → parseEntity (Entity.display (some a) r) = .err := by
  have h : (readAs "f(...)").isSome = true ∧
      (readAs "f(...)").all (fun a => decide (shown a = "f(, ...)".toList)) = true := by decide +kernel
  cases ha : readAs "f(...)" with
  | none => rw [ha] at h; exact absurd h.1 (by simp)
  | some a =>
    rw [ha] at h
    simp only [Option.all_some, decide_eq_true_eq] at h
    refine ⟨a, readAs_eq ha, fun r hr => ?_⟩
    rw [display_shown a r hr, h.2]
    have : (match parseEntity "f(, ...)".toList with | .err => true | _ => false) = true := by decide +kernel
    split at this
    · assumption
    · cases this

/-- **C65.** Two different entities are displayed alike. -/
theorem c65_ambiguous : ∃ a b, parseEntity "decltype(- -a)".toList = .ok [] (some a) ∧
    parseEntity "decltype(--a)".toList = .ok [] (some b) ∧ a ≠ b ∧
    ∀ r r', depth a < r → depth b < r' → Entity.display (some a) r = Entity.display (some b) r' := by
  have h : (readAs "decltype(- -a)").all (fun a => decide (a.minuses = 2 ∧ shown a = "decltype(--a)".toList)) = true ∧
      (readAs "decltype(--a)").all (fun a => decide (a.minuses = 1 ∧ shown a = "decltype(--a)".toList)) = true ∧
      (readAs "decltype(- -a)").isSome = true ∧ (readAs "decltype(--a)").isSome = true := by decide +kernel
  obtain ⟨h1, h2, h3, h4⟩ := h
  cases ha : readAs "decltype(- -a)" with
  | none => rw [ha] at h3; cases h3
  | some a =>
    cases hb : readAs "decltype(--a)" with
    | none => rw [hb] at h4; cases h4
    | some b =>
      rw [ha] at h1; rw [hb] at h2
      simp only [Option.all_some, decide_eq_true_eq] at h1 h2
      refine ⟨a, b, readAs_eq ha, readAs_eq hb, ?_, fun r r' hr hr' => ?_⟩
      · intro e; rw [e] at h1; omega
      · rw [display_shown a r hr, display_shown b r' hr', h1.2, h2.2]

/-- **C65.** A name that starts with `new` is read as a `new` expression where a value is expected. -/
theorem c65_newton : ∃ a, parseEntity "decltype(f(newton))".toList = .ok [] (some a) ∧
    parseEntity "decltype(f(new ton))".toList = .ok [] (some a) := by
  have h : parseEntity "decltype(f(newton))".toList = parseEntity "decltype(f(new ton))".toList := by
    with_unfolding_all rfl
  have h1 : (readAs "decltype(f(newton))").isSome = true := by decide +kernel
  cases ha : readAs "decltype(f(newton))" with
  | none => rw [ha] at h1; cases h1
  | some a => exact ⟨a, readAs_eq ha, h ▸ readAs_eq ha⟩

/-- **C65.** A character literal outside printable ASCII is read, but its display, a Rust escape
sequence, is not. -/
theorem c65_control : ∃ a, parseEntity "A<'\\x1'>".toList = .ok [] (some a) ∧
    ∀ r, depth a < r → parseEntity (Entity.display (some a) r) = .err := by
  have h : (readAs "A<'\\x1'>").isSome = true ∧
      (readAs "A<'\\x1'>").all (fun a => decide (shown a = "A<'\\u{1}'>".toList)) = true := by decide +kernel
  cases ha : readAs "A<'\\x1'>" with
  | none => rw [ha] at h; exact absurd h.1 (by simp)
  | some a =>
    rw [ha] at h
    simp only [Option.all_some, decide_eq_true_eq] at h
    refine ⟨a, readAs_eq ha, fun r hr => ?_⟩
    rw [display_shown a r hr, h.2]
    have : (match parseEntity "A<'\\u{1}'>".toList with | .err => true | _ => false) = true := by decide +kernel
    split at this
    · assumption
    · cases this

/-- What a text is displayed as. -/
theorem shows {s t : String}
    (h : (readAs s).isSome = true ∧ (readAs s).all (fun a => decide (shown a = t.toList)) = true) :
    ∃ a, parseEntity s.toList = .ok [] (some a) ∧ ∀ r, depth a < r → Entity.display (some a) r = t.toList := by
  cases ha : readAs s with
  | none => rw [ha] at h; exact absurd h.1 (by simp)
  | some a =>
    rw [ha] at h
    simp only [Option.all_some, decide_eq_true_eq] at h
    exact ⟨a, readAs_eq ha, fun r hr => by rw [display_shown a r hr, h.2]⟩

/-- The parser rejects a text. -/
def rejects (s : String) : Bool :=
  match parseEntity s.toList with
  | .err => true
  | _ => false

theorem rejects_eq {s : String} (h : rejects s = true) : parseEntity s.toList = .err := by
  unfold rejects at h
  split at h
  · assumption
  · cases h

/-- **C65.** `x++ + y` is read as another expression than `x + ++y`, and displayed like it. -/
theorem c65_postfix : ∃ a b, parseEntity "decltype(x++ + y)".toList = .ok [] (some a) ∧
    parseEntity "decltype(x + ++y)".toList = .ok [] (some b) ∧ a ≠ b ∧
    ∀ r r', depth a < r → depth b < r' →
      Entity.display (some a) r = "decltype(x + ++y)".toList ∧ Entity.display (some b) r' = "decltype(x + ++y)".toList := by
  have h1 : (readAs "decltype(x++ + y)").all (fun a => decide (a.minuses = 2)) = true := by decide +kernel
  have h2 : (readAs "decltype(x + ++y)").all (fun a => decide (a.minuses = 1)) = true := by decide +kernel
  obtain ⟨a, ha, da⟩ := shows (s := "decltype(x++ + y)") (t := "decltype(x + ++y)") (by decide +kernel)
  obtain ⟨b, hb, db⟩ := shows (s := "decltype(x + ++y)") (t := "decltype(x + ++y)") (by decide +kernel)
  refine ⟨a, b, ha, hb, ?_, fun r r' hr hr' => ⟨da r hr, db r' hr'⟩⟩
  rintro rfl
  have e1 : readAs "decltype(x++ + y)" = some a := by unfold readAs; rw [ha]
  have e2 : readAs "decltype(x + ++y)" = some a := by unfold readAs; rw [hb]
  rw [e1] at h1; rw [e2] at h2
  simp only [Option.all_some, decide_eq_true_eq] at h1 h2
  omega

/-- **C65.** An ampersand before `::` is dropped. -/
theorem c65_ampersand : ∃ a, parseEntity "decltype(x &::y)".toList = .ok [] (some a) ∧
    parseEntity "decltype(x::y)".toList = .ok [] (some a) := by
  have h : parseEntity "decltype(x &::y)".toList = parseEntity "decltype(x::y)".toList := by
    with_unfolding_all rfl
  have h1 : (readAs "decltype(x &::y)").isSome = true := by decide +kernel
  cases ha : readAs "decltype(x &::y)" with
  | none => rw [ha] at h1; cases h1
  | some a => exact ⟨a, readAs_eq ha, h ▸ readAs_eq ha⟩

/-- **C65.** A sum that starts with a parenthesis is read as a cast of a sign; displaying it, reading the
display and displaying the result loses the sign. -/
theorem c65_cast : ∃ a b, parseEntity "decltype((x) + 1)".toList = .ok [] (some a) ∧
    (∀ r, depth a < r → parseEntity (Entity.display (some a) r) = .ok [] (some b)) ∧
    ∀ r, depth b < r → Entity.display (some b) r = "decltype((x)1)".toList := by
  obtain ⟨a, ha, da⟩ := shows (s := "decltype((x) + 1)") (t := "decltype((x)+1)") (by decide +kernel)
  obtain ⟨b, hb, db⟩ := shows (s := "decltype((x)+1)") (t := "decltype((x)1)") (by decide +kernel)
  exact ⟨a, b, ha, fun r hr => by rw [da r hr, hb], db⟩

/-- **C65.** Creating an object of an anonymous type is displayed as if the type were placement arguments, and read so. -/
theorem c65_new_anonymous : ∃ a b, parseEntity "decltype(new struct (anonymous))".toList = .ok [] (some a) ∧
    (∀ r, depth a < r → Entity.display (some a) r = "decltype(new (anonymous))".toList) ∧
    parseEntity "decltype(new (anonymous))".toList = .ok [] (some b) ∧
    (∀ r, depth b < r → Entity.display (some b) r = "decltype(new(anonymous))".toList) ∧ a ≠ b := by
  obtain ⟨a, ha, da⟩ := shows (s := "decltype(new struct (anonymous))") (t := "decltype(new (anonymous))") (by decide +kernel)
  obtain ⟨b, hb, db⟩ := shows (s := "decltype(new (anonymous))") (t := "decltype(new(anonymous))") (by decide +kernel)
  refine ⟨a, b, ha, da, hb, db, ?_⟩
  rintro rfl
  have := (da _ (Nat.lt_succ_self _)).symm.trans (db _ (Nat.lt_succ_self _))
  exact absurd this (by decide +kernel)

/-- **C65.** Valid C++ that is rejected, and accepted variants of some of it. -/
theorem c65_rejected : parseEntity "A<x >= 1>".toList = .err ∧ (∃ a, parseEntity "A<(x >= 1)>".toList = .ok [] (some a)) ∧
    parseEntity "std :: vector<int>".toList = .err ∧ parseEntity "A<1.5>".toList = .err ∧
    parseEntity "A<\"abc\">".toList = .err ∧ parseEntity "A<1'000>".toList = .err ∧
    parseEntity "void f(int)".toList = .err := by
  refine ⟨rejects_eq (by decide +kernel), ?_, rejects_eq (by decide +kernel), rejects_eq (by decide +kernel),
    rejects_eq (by decide +kernel), rejects_eq (by decide +kernel), rejects_eq (by decide +kernel)⟩
  obtain ⟨a, ha, -⟩ := shows (s := "A<(x >= 1)>") (t := "A<(x >= 1)>") (by decide +kernel)
  exact ⟨a, ha⟩

end Verif.Cpp
