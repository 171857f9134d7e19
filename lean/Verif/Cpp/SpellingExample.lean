/-
C63: the hypotheses of `c63_reads` are met by ordinary C++ entities.
-/
import Verif.Cpp.SpellingMain

set_option autoImplicit false
set_option linter.unusedVariables false

namespace Verif.Cpp

/-- `char const *` -/
def exChar : Ast .ty :=
  .ty .nil CV.none (.stLegacy .char) (.cons (.dCv ⟨true, false⟩) (.cons (.dPtr (.path false .nil) CV.none false) .nil))

/-- `pair<char const *, 3>` -/
def exPair : Ast .uid :=
  .named false "pair".toList (.some (.tpList (.cons (.tpTy exChar)
    (.cons (.tpVal (.value (.hLit ⟨.i64 3, none⟩) .nil)) .nil))))

/-- `std::pair<char const *, 3>::f(T&&) const noexcept` -/
def exMember : Ast .ty :=
  .ty .nil CV.none
    (.stId (.idExpr (.path false (.cons (.scope (.named false "std".toList .none) .none)
      (.cons (.scope exPair .none) .nil))) (.named false ['f'] .none)))
    (.cons (.dFun (.sig none (.cons (.ty .nil CV.none (.stId (.idExpr (.path false .nil) (.named false ['T'] .none)))
      (.cons (.dRef .rvalue) .nil)) .nil) false ⟨true, false⟩ .none (.nxSome .none) .none)) .nil)

theorem Spells.cast {K : Char → Prop} {s : S} {a : Ast s} {t t' : List Char} (h : Spells K a t) (e : t = t') :
    Spells K a t' := e ▸ h

theorem cvText_none : CvText CV.none [] := ⟨[], fun _ h => (nomatch h), .nil, rfl⟩
theorem cvText_const : CvText ⟨true, false⟩ "const".toList :=
  ⟨["const"], by decide, .one "const", by decide⟩
theorem blank_nil : Blank [] := fun _ h => (nomatch h)
theorem blank_one : Blank [' '] := by intro c h; simp at h; subst h; decide

theorem exChar_spells : Spells PlainChar exChar "char const *".toList := by
  refine (Spells.ty (b1 := []) (b2 := [' ']) cvText_none blank_nil (by simp)
    (.legacy (n := .char) (t := "char".toList) ⟨["char"], ⟨["char"], by decide, by decide⟩, .one "char"⟩) blank_one
    (.declCons (b := [' ']) (.dCv (t := "const".toList) (by decide) cvText_const) blank_one
      (.declCons (b := []) (.dPtr .none) blank_nil .declNil (by decide) (fun _ => rfl) (by decide) (by simp [Ast.len]))
      (by decide) (by simp) (by decide +kernel) (by simp [Ast.len]))
    (by simp) (by decide +kernel) (by decide) (fun e => absurd e (by decide))).cast (by decide +kernel)

theorem isName_of {i : Ident} (h : (i.all isIdCont && (match i with | c :: _ => isIdStart c | [] => false) &&
    reserved.all fun w => i != w.toList) = true) : IsName i := by
  simp only [Bool.and_eq_true, List.all_eq_true, bne_iff_ne] at h
  refine ⟨⟨h.1.1, ?_⟩, h.2⟩
  cases i with
  | nil => exact absurd h.1.2 (by simp)
  | cons c cs => exact ⟨c, cs, rfl, h.1.2⟩

/-- A literal alone is a value. -/
theorem lit_spells {K : Char → Prop} {l : Literal} {t : List Char} (h : LitText K l t) :
    Spells K (.value (.hLit l) .nil) t :=
  (Spells.value (.hLit h) .trailNil trivial (by simp [Ast.len])).cast (List.append_nil t)

theorem exPair_spells : Spells PlainChar exPair "pair<char const *, 3>".toList := by
  refine (Spells.namedT (b := []) (isName_of (by decide +kernel)) blank_nil
    (.tpList (b := []) (b' := []) (by intro e; cases e) (by simp [Ast.len]) blank_nil
      (.tparamsCons (b := []) (b' := [' ']) (.tpTy exChar_spells (by decide)) blank_nil blank_one (by intro e; cases e)
        (.tparamsOne (.tpVal (lit_spells (.pos 3 [] (by decide) (by simp))) rfl rfl rfl)))
      blank_nil)).cast (by decide +kernel)

/-- A member function of a template, with qualifiers. -/
theorem exMember_spells :
    Spells PlainChar exMember "std::pair<char const *, 3>::f( T&& ) const noexcept".toList := by
  refine (Spells.ty (b1 := []) (b2 := []) cvText_none blank_nil (by simp)
    (.stId (.idExpr (.path (rooted := false) (.scopesCons (.scope (.named (isName_of (by decide +kernel))) rfl)
      (.scopesCons (.scope exPair_spells rfl) .scopesNil)) (by simp [Ast.len])) (.named (isName_of (by decide +kernel)))))
    blank_nil
    (.declCons (b := []) (.dFun (.sig (abi := none) (variadic := false) (b := [' ']) (b' := [' ']) (c := []) (c' := [])
        (q := " const".toList)
        (fun _ e => (nomatch e)) (by intro e; cases e) (by simp [Ast.len]) blank_one
        (.paramsOne (.ty (b1 := []) (b2 := []) cvText_none blank_nil (by simp)
          (.stId (.idExpr (.path (rooted := false) .scopesNil (by simp [Ast.len])) (.named (isName_of (by decide +kernel)))))
          blank_nil (.declCons (b := []) (.dRef (by decide)) blank_nil .declNil (by decide) (fun _ => rfl)
            (by decide) (by simp [Ast.len])) (by simp) (by decide +kernel) (by decide) (fun e => absurd e (by decide))) (by decide))
        blank_one blank_nil blank_nil
        ⟨[' '], "const".toList, [], cvText_const, blank_one, blank_nil, by decide +kernel, fun _ => rfl, by decide +kernel⟩
        (.nxPlain blank_one (by simp)) .trNone)) blank_nil .declNil (by decide) (fun _ => rfl) (by decide) (by simp [Ast.len]))
    (by simp) (by decide +kernel) (by decide) (fun e => absurd e (by decide))).cast (by decide +kernel)

/-- **C63** on a concrete entity. -/
example : parseEntity "std::pair<char const *, 3>::f( T&& ) const noexcept".toList = .ok [] (some exMember) :=
  c63_reads exMember_spells

/-- `int` -/
def exInt : Ast .ty := .ty .nil CV.none (.stLegacy (.signedInt)) .nil

theorem exInt_spells : Spells PlainChar exInt "int".toList := by
  refine (Spells.ty (b1 := []) (b2 := []) cvText_none blank_nil (by simp)
    (.legacy (n := .signedInt) (t := "int".toList) ⟨["int"], ⟨["int"], by decide, by decide⟩, .one "int"⟩) blank_nil
    .declNil (by simp) (by simp [idHead]) (by decide) (fun e => absurd e (by decide))).cast (by decide +kernel)

/-- `f() noexcept('\x41') -> int` -/
def exTrail : Ast .ty :=
  .ty .nil CV.none (.stId (.idExpr (.path false .nil) (.named false ['f'] .none)))
    (.cons (.dFun (.sig none .nil false CV.none .none
      (.nxSome (.some (.value (.hLit ⟨.chr 'A', none⟩) .nil))) (.some exInt))) .nil)

theorem exTrail_spells : Spells PlainChar exTrail "f() noexcept('\\x41') -> int".toList := by
  refine (Spells.ty (b1 := []) (b2 := []) cvText_none blank_nil (by simp)
    (.stId (.idExpr (.path (rooted := false) .scopesNil (by simp [Ast.len])) (.named (isName_of (by decide +kernel)))))
    blank_nil
    (.declCons (b := []) (.dFun (.sig0 (abi := none) (b := []) (q := []) (fun _ e => (nomatch e)) blank_nil
        ⟨[], [], [], cvText_none, blank_nil, blank_nil, by simp, by simp, by decide +kernel⟩
        (.nxArg (b := [' ']) (c := []) (c' := []) blank_one (by simp) blank_nil
          (lit_spells (.chr "" 'A' "\\x41".toList (by decide) (by unfold PlainChar; decide)
            (.inr (.inr (.inl ⟨'x', ['4', '1'], by decide,
              .more ['4'] 4 '1' 1 (.one '4' 4 (by decide) (by decide)) (by decide) (by decide), by decide +kernel⟩)))))
          rfl blank_nil)
        (.trSome blank_one blank_one exInt_spells (by decide))))
      blank_nil .declNil (by decide) (fun _ => rfl) (by decide) (by simp [Ast.len]))
    (by simp) (by decide +kernel) (by decide) (fun e => absurd e (by decide))).cast (by decide +kernel)

/-- **C63** on a function with a trailing return type. -/
example : parseEntity "f() noexcept('\\x41') -> int".toList = .ok [] (some exTrail) := c63_reads exTrail_spells

/-- `__attribute__((2)) A::operator int` -/
def exAttr : Ast .ty :=
  .ty (.cons (.value (.hLit ⟨.i64 2, none⟩) .nil) .nil) CV.none
    (.stId (.idExpr (.path false (.cons (.scope (.named false ['A'] .none) .none) .nil))
      (.opId (.conversion exInt) .none))) .nil

theorem exAttr_spells : Spells PlainChar exAttr "__attribute__((2)) A::operator int".toList := by
  refine (Spells.tyAttr (b := [' ']) (by intro e; cases e)
    (.args (b := []) (b' := []) (by intro e; cases e) (by simp [Ast.len]) blank_nil
      (.valuesOne (lit_spells (.pos 2 [] (by decide) (by simp))) rfl) blank_nil) blank_one
    (.ty (b1 := []) (b2 := []) cvText_none blank_nil (by simp)
      (.stId (.idExpr (.path (rooted := false) (.scopesCons (.scope (.named (isName_of (by decide +kernel))) rfl)
        .scopesNil) (by simp [Ast.len])) (.opConv blank_one (by simp) exInt_spells (by decide))))
      blank_nil .declNil (by simp) (by simp [idHead]) (by decide) (fun _ => rfl))).cast (by decide +kernel)

/-- **C63** on an attribute and a conversion operator. -/
example : parseEntity "__attribute__((2)) A::operator int".toList = .ok [] (some exAttr) := c63_reads exAttr_spells

/-- The name `i`, as a value. -/
def exVar (i : Ident) : Ast .value := .value (.hId (.idExpr (.path false .nil) (.named false i .none))) .nil

/-- `x.f(2)[i] + -y` -/
def exSum : Ast .value :=
  .value (.hId (.idExpr (.path false .nil) (.named false ['x'] .none)))
    (.cons (.aMember (.named false ['f'] .none)) (.cons (.aCall (.cons (.value (.hLit ⟨.i64 2, none⟩) .nil) .nil))
      (.cons (.aIndex (exVar ['i'])) (.cons (.aBinary (.arith (.basic .addPlus false false))
        (.value (.hUnary (.arith (.basic .subNeg false false)) (exVar ['y'])) .nil)) .nil))))

/-- `A<x.f(2)[i] + -y>` -/
def exExpr : Ast .ty :=
  .ty .nil CV.none (.stId (.idExpr (.path false .nil) (.named false ['A'] (.some (.tpList (.cons (.tpVal exSum) .nil)))))) .nil

theorem valueName_one {c : Char} (h : c ∈ ['i', 'x', 'y']) : ValueName [c] := by
  have e1 : "new".toList = 'n' :: 'e' :: "w".toList := by decide +kernel
  have e2 : "::new".toList = ':' :: ':' :: "new".toList := by decide +kernel
  have e3 : "sizeof".toList = 's' :: "izeof".toList := by decide +kernel
  have e4 : "declval".toList = 'd' :: "eclval".toList := by decide +kernel
  refine ⟨?_, ?_, ?_, ?_⟩
  · intro r e; rw [e1] at e; cases e
  · intro r e; rw [e2] at e; cases e
  · rw [e3]; revert c; decide +kernel
  · rw [e4]; revert c; decide +kernel

theorem exId_spells {c : Char} (h : c ∈ ['i', 'x', 'y']) :
    Spells PlainChar (.hId (.idExpr (.path false .nil) (.named false [c] .none))) [c] := by
  have hn : ∀ c ∈ ['i', 'x', 'y'], ([c].all isIdCont && isIdStart c && reserved.all fun w => [c] != w.toList) = true := by
    decide +kernel
  exact .hId ((Spells.idExpr (.path (rooted := false) .scopesNil (by simp [Ast.len])) (.named (isName_of (hn c h)))).cast rfl)
    rfl rfl (valueName_one h)

theorem none_ne {α : Type} {x : Option α} {a : α} (h : Option.none = x) : x ≠ Option.some a := by
  rw [← h]; intro e; cases e

theorem nameFollow_nil : NameFollow .nil :=
  ⟨none_ne rfl, fun _ e => absurd e (none_ne rfl), fun _ e => absurd e (none_ne rfl)⟩

theorem exVar_spells {c : Char} (h : c ∈ ['i', 'x', 'y']) : Spells PlainChar (exVar [c]) [c] :=
  (Spells.value (exId_spells h) .trailNil nameFollow_nil (by simp [Ast.len])).cast rfl

theorem exSum_spells : Spells PlainChar exSum "x.f(2)[i] + -y".toList := by
  refine (Spells.value (exId_spells (c := 'x') (by decide))
    (.trailMember (b := []) (c := []) blank_nil blank_nil (.named (d := false) (isName_of (by decide +kernel))) rfl rfl
      (.trailCall (b := []) blank_nil (.args (b := []) (b' := []) (by intro e; cases e) (by simp [Ast.len]) blank_nil
          (.valuesOne (lit_spells (.pos 2 [] (by decide) (by simp))) rfl) blank_nil)
        (.trailIndex (b := []) (c := []) (c' := []) blank_nil blank_nil (exVar_spells (c := 'i') (by decide)) rfl blank_nil
          (.trailBinary (w := "+") (b := [' ']) (c := [' ']) (by decide) blank_one blank_one
            (.value (.hUnary (y := .subNeg) (b := []) (by decide) blank_nil (exVar_spells (c := 'y') (by decide)) fun _ => rfl)
              .trailNil rfl (by simp [Ast.len]))
            (fun e => absurd e (by decide)) (fun _ => ⟨by simp, rfl⟩) (fun e => absurd e (by decide)))))
      (none_ne rfl))
    ⟨none_ne rfl, fun _ e => absurd e (none_ne rfl), fun _ e => absurd e (none_ne rfl)⟩ (by simp [Ast.len])).cast (by decide +kernel)

theorem exExpr_spells : Spells PlainChar exExpr "A<x.f(2)[i] + -y>".toList := by
  refine (Spells.ty (b1 := []) (b2 := []) cvText_none blank_nil (by simp)
    (.stId (.idExpr (.path (rooted := false) .scopesNil (by simp [Ast.len]))
      (.namedT (d := false) (b := []) (isName_of (by decide +kernel)) blank_nil
        (.tpList (b := []) (b' := []) (by intro e; cases e) (by simp [Ast.len]) blank_nil
          (.tparamsOne (.tpVal exSum_spells rfl rfl rfl)) blank_nil))))
    blank_nil .declNil (by simp) (by simp [idHead]) (by decide) (fun e => absurd e (by decide))).cast (by decide +kernel)

/-- **C63** on an expression. -/
example : parseEntity "A<x.f(2)[i] + -y>".toList = .ok [] (some exExpr) := c63_reads exExpr_spells

/-- `... + x` -/
def exFold : Ast .value :=
  .value .hEllipsis (.cons (.aBinary (.arith (.basic .addPlus false false)) (exVar ['x'])) .nil)

theorem exFold_spells : Spells PlainChar exFold "... + x".toList :=
  (Spells.value .hEllipsis
    (.trailBinary (w := "+") (b := [' ']) (c := [' ']) (by decide) blank_one blank_one
      (exVar_spells (c := 'x') (by decide)) (fun e => absurd e (by decide)) (fun _ => ⟨by simp, rfl⟩)
      (fun e => absurd e (by decide))) trivial (by simp [Ast.len])).cast (by decide +kernel)

/-- `A<(... + x)>` -/
def exFolded : Ast .ty :=
  .ty .nil CV.none (.stId (.idExpr (.path false .nil) (.named false ['A']
    (.some (.tpList (.cons (.tpVal (.value (.hParen exFold) .nil)) .nil)))))) .nil

theorem exFolded_spells : Spells PlainChar exFolded "A<(... + x)>".toList := by
  refine (Spells.ty (b1 := []) (b2 := []) cvText_none blank_nil (by simp)
    (.stId (.idExpr (.path (rooted := false) .scopesNil (by simp [Ast.len]))
      (.namedT (d := false) (b := []) (isName_of (by decide +kernel)) blank_nil
        (.tpList (b := []) (b' := []) (by intro e; cases e) (by simp [Ast.len]) blank_nil
          (.tparamsOne (.tpVal (.value (.hParen (b := []) (b' := []) blank_nil exFold_spells blank_nil) .trailNil
            (.inl rfl) (by simp [Ast.len])) rfl rfl rfl)) blank_nil))))
    blank_nil .declNil (by simp) (by simp [idHead]) (by decide) (fun e => absurd e (by decide))).cast (by decide +kernel)

/-- **C63** on a fold expression. -/
example : parseEntity "A<(... + x)>".toList = .ok [] (some exFolded) := c63_reads exFolded_spells

/-- **C63** on an ellipsis that is not last. -/
example : parseEntity (['f'] ++ "(..., ".toList ++ "char const *".toList ++ [')']) = .err :=
  c63_ellipsis_last (isName_of (by decide +kernel)) exChar_spells (by decide)

end Verif.Cpp
