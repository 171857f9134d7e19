import Verif.Cpp.EntityProps
import Verif.Cpp.Operators
import Verif.Cpp.AtomsProps
import Verif.Cpp.GrammarFacts
import Verif.Cpp.SpellingExample
import Verif.Cpp.DisplayMain
set_option autoImplicit false

/-! # Theorems of C37, C38, C46-C48, C50, C53, C63 and C64 applied to concrete texts and entities -/
namespace Verif.Cpp

theorem vectorFn_regular : vectorFn.Regular := by
  intro t ht
  cases ht
  simp [Cpp.Regular, Ast.isNil]

example : vectorFn.display 2 = vectorFn.display 7 :=
  advertised_depth_suffices vectorFn vectorFn_regular 2 7 (by decide +kernel) (by decide +kernel)
/-- `f(, ...)`, which is not regular -/
example : variadicF.display 2 = variadicF.display 9 :=
  advertised_depth_succ_suffices variadicF 2 9 (by decide +kernel) (by decide +kernel)
example := bounded_display_complete .unit vectorFn vectorFn_regular 20 (by decide) (by decide +kernel)

example (c : Ctx) (st : DSt) (h : st.budget = 3) := display_restores_budget exMember c st (by omega)
example (st : DSt) (h : st.budget = 0) := entity_display_restores_budget vectorFn st (by omega)

example : ∃ op, op.text = "->*".toList ∧ binaryExprMiddle false false ("->*".toList ++ "x>".toList) = .ok "x>".toList op :=
  binary_complete false false (w := "->*") (by decide +kernel) (by intro c t h; simp at h; rw [← h.1]; decide)
example := binary_sound (ac := false) (ag := false) (s := ">>=x".toList) (r := ['x']) (op := .basic .greater true true)
  (by with_unfolding_all rfl)

theorem wLong : Written legacyWords ["long", "double"] "long double*".toList ['*'] := by
  refine .word "long" ["double"] [' '] "double*".toList _ (by decide) (by decide) ?_ (by simp) ?_
  · intro c t h; simp at h; rw [← h.1]; decide
  · refine .word "double" [] [] ['*'] _ (by decide) (by decide) ?_ ?_ ?_
    · intro c t h; simp at h; rw [← h.1]; decide
    · intro _ c t h; simp at h; rw [← h.1]; decide
    · refine .done _ ?_
      rw [← legacyWords_eq, ← keywords_none legacyTable_good]
      with_unfolding_all rfl

theorem wLong' : Written legacyWords ["double", "long"] "double\t long*".toList ['*'] := by
  refine .word "double" ["long"] "\t ".toList "long*".toList _ (by decide) (by decide) ?_ (by simp) ?_
  · intro c t h; simp at h; rw [← h.1]; decide
  · refine .word "long" [] [] ['*'] _ (by decide) (by decide) ?_ ?_ ?_
    · intro c t h; simp at h; rw [← h.1]; decide
    · intro _ c t h; simp at h; rw [← h.1]; decide
    · refine .done _ ?_
      rw [← legacyWords_eq, ← keywords_none legacyTable_good]
      with_unfolding_all rfl

example := legacy_spec wLong
example := legacy_order_insensitive wLong wLong' (.swap _ _ _)
example := denotes_unique (ws := ["int", "unsigned", "long"]) (n := .unsignedLong) (n' := .unsignedLong)
  ⟨["unsigned", "long", "int"], by decide, by decide⟩ ⟨["unsigned", "long", "int"], by decide, by decide⟩

example : ∃ ws, Written cvWords ws "volatile const volatile x".toList ['x'] ∧ ws.contains "const" ∧ ws.contains "volatile" := by
  obtain ⟨ws, rest, h⟩ := cv_total "volatile const volatile x".toList
  have h1 := cv_spec h
  have h2 : parseCv "volatile const volatile x".toList = .ok ['x'] ⟨true, true⟩ := by with_unfolding_all rfl
  rw [h2] at h1
  simp only [Res.ok.injEq, CV.mk.injEq] at h1
  obtain ⟨rfl, h3, h4⟩ := h1
  exact ⟨ws, h, h3.symm, h4.symm⟩

example : parseEntity ("std::__detail::_Hashtable_base<std::string, std::pair<const std::string, " ++
    "std::function<void (ns::Event const&, unsigned long)>>, ns::(lambda at /home/me/src/a.cpp:12:3), " ++
    "(A<3> + 2 == 5) ? 1 : 0>::rehash(unsigned long) const").toList ≠ .panic :=
  c50_safe _ (safeB_spec (by decide +kernel))

example (b : Ast .ty) (h : Spells PlainChar b "std::pair<char const *, 3>::f( T&& ) const noexcept".toList) : exMember = b :=
  c63_unambiguous exMember_spells h
example (b : Ast .ty) (u : List Char) (hb : Spells PlainChar b u) (r : Nat) (hr : depth b < r)
    (h : Entity.display (some exMember) 7 = Entity.display (some b) r) : exMember = b :=
  c64_injective exMember_spells hb 7 r (by decide +kernel) hr h
example := c64_canonical exMember_spells 7 (by decide +kernel)
example := c64_canonical exExpr_spells 12 (by decide +kernel)

end Verif.Cpp
