/-
C63: template arguments and function signatures read back what they spell, when their parts do.
-/
import Verif.Cpp.SpellingDecl

set_option autoImplicit false
set_option linter.unusedVariables false
set_option linter.unusedSimpArgs false

namespace Verif.Cpp

/-! ## Separated lists -/

theorem sepTail_end {α : Type} {item : P α} {sep term : P Unit} {s r : Input} (h : term s = .ok r ()) :
    P.sepTermTail item sep term s = .ok r [] := by
  rw [P.sepTermTail, h]

theorem sepTail_cons {α : Type} {item : P α} {sep term : P Unit} {s z y r : Input} {a : α} {as : List α}
    (hterm : term s = .err) (hsep : sep s = .ok z ()) (hitem : item z = .ok y a) (hlt : y.length < s.length)
    (h : P.sepTermTail item sep term y = .ok r as) : P.sepTermTail item sep term s = .ok r (a :: as) := by
  rw [P.sepTermTail, hterm]
  have : (sep >>= fun _ => item) s = .ok y a := bind_step hsep hitem
  simp only [this, h, if_pos hlt]

theorem sepTerm_of {α : Type} {item : P α} {sep term : P Unit} {s y r : Input} {a : α} {as : List α}
    (hitem : item s = .ok y a) (h : P.sepTermTail item sep term y = .ok r as) :
    P.sepTerm item sep term s = .ok r (a :: as) := by
  rw [P.sepTerm]
  exact bind_step hitem (bind_step (p := P.sepTermTail item sep term) h rfl)

theorem sepTerm_cons {α : Type} {item : P α} (hp : Prog item) {sep term : P Unit} {s y z r : Input} {a : α}
    {as : List α} (hitem : item s = .ok y a) (hterm : term y = .err) (hsep : sep y = .ok z ())
    (hlt : z.length < y.length) (h : P.sepTerm item sep term z = .ok r as) :
    P.sepTerm item sep term s = .ok r (a :: as) := by
  have h' : ((item >>= fun a => (P.sepTermTail item sep term : P (List α)) >>= fun as => pure (a :: as)) : P (List α)) z =
    .ok r as := h
  obtain ⟨y', a', h1, h2⟩ := bind_inv h'
  obtain ⟨r', as', h3, h4⟩ := bind_inv h2
  rw [P.pure_run] at h4
  simp only [Res.ok.injEq] at h4
  obtain ⟨rfl, rfl⟩ := h4
  refine sepTerm_of hitem (sepTail_cons hterm hsep h1 ?_ h3)
  have := (hp _ _ _ h1).2
  omega

theorem Prog.tparam : Prog (templateParameter grammar) := Prog.ofG fun n => (grammar_good n).templateParameter
theorem Prog.param : Prog (parameterOrEllipsis grammar) := Prog.ofG fun n => (grammar_good n).parameterOrEllipsis

/-! ## Template arguments -/

/-- What follows a template argument. -/
structure TEnd (rest : Input) : Prop where
  stop : Stop rest
  noBinary : binaryExprMiddle false false rest = .err
  head : ∃ c u, rest = c :: u ∧ (c = ',' ∨ c = '>')

theorem TEnd.tparamEnd {sp rest : Input} (h : TEnd rest) (hsp : Blank sp) : tparamEnd (sp ++ rest) = .ok rest () := by
  obtain ⟨c, u, rfl, hc⟩ := h.head
  rw [Cpp.tparamEnd]
  refine bind_step (space0_run hsp h.stop.noSp) ?_
  rcases hc with rfl | rfl
  · exact peek_run (or_l (char_run _ _))
  · exact peek_run (or_r (char_err (by simp)) (char_run _ _))

theorem result_comma (ag : Bool) (b : Symbol) (c : Option Symbol) (h1 : b ≠ .comma) (h2 : b ≠ .assignEq) :
    binaryResult false ag (some .comma) (some b) c = some none := by
  have h0 : ∀ ag, ∀ b ∈ allSymbols, ∀ c ∈ none :: allSymbols.map some, b ≠ .comma → b ≠ .assignEq →
      binaryResult false ag (some .comma) (some b) c = some none := by decide +kernel
  refine h0 ag b (mem_allSymbols b) c ?_ h1 h2
  cases c with
  | none => simp
  | some c => simp [mem_allSymbols c]

theorem result_greater (ac : Bool) (b : Symbol) (c : Option Symbol) (h1 : b ≠ .assignEq)
    (h2 : b = .greater → c ≠ some .assignEq) : binaryResult ac false (some .greater) (some b) c = some none := by
  have h0 : ∀ ac, ∀ b ∈ allSymbols, ∀ c ∈ none :: allSymbols.map some, b ≠ .assignEq →
      (b = .greater → c ≠ some .assignEq) →
      binaryResult ac false (some .greater) (some b) c = some none := by decide +kernel
  refine h0 ac b (mem_allSymbols b) c ?_ h1 h2
  cases c with
  | none => simp
  | some c => simp [mem_allSymbols c]

theorem binary_comma {s : Input} (h1 : s.head? ≠ some ',') (h2 : s.head? ≠ some '=') (ag : Bool) :
    binaryExprMiddle false ag (',' :: s) = .err := by
  have e : ',' = Symbol.char .comma := rfl
  rcases symbol_cases s with ⟨b, t, rfl, -⟩ | ⟨-, h⟩
  · have hb1 : b ≠ .comma := by rintro rfl; exact h1 rfl
    have hb2 : b ≠ .assignEq := by rintro rfl; exact h2 rfl
    rcases symbol_cases t with ⟨c, t, rfl, -⟩ | ⟨-, h⟩
    · rw [e, binary_run3, result_comma _ _ _ hb1 hb2]; rfl
    · rw [e, binary_run2 _ _ _ _ h, result_comma _ _ _ hb1 hb2]; rfl
  · rw [e, binary_run1 _ _ _ h]; rfl

theorem binary_greater {s : Input} (h : NoEq ('>' :: s)) (ac : Bool) :
    binaryExprMiddle ac false ('>' :: s) = .err := by
  have e : '>' = Symbol.char .greater := rfl
  have hs := NoEq.gt.1 h
  rcases symbol_cases s with ⟨b, t, rfl, -⟩ | ⟨-, h⟩
  · have hb2 : b ≠ .assignEq := by rintro rfl; exact hs t rfl
    rcases symbol_cases t with ⟨c, t, rfl, -⟩ | ⟨-, h⟩
    · have hc : b = .greater → some c ≠ some .assignEq := by
        rintro rfl hc
        simp only [Option.some.injEq] at hc
        subst hc
        exact hs t rfl
      rw [e, binary_run3, result_greater _ _ _ hb2 hc]; rfl
    · rw [e, binary_run2 _ _ _ _ h, result_greater _ _ _ hb2 (by simp)]; rfl
  · rw [e, binary_run1 _ _ _ h]
    cases ac <;> rfl

theorem TEnd.comma {s : Input} (h1 : s.head? ≠ some ',') (h2 : s.head? ≠ some '=') : TEnd (',' :: s) := by
  refine ⟨⟨fun c r e => ?_, NoEq.other (by decide) (by decide)⟩, binary_comma h1 h2 _, _, _, rfl, Or.inl rfl⟩
  simp only [List.cons.injEq] at e
  rw [← e.1]; decide

theorem TEnd.greater {s : Input} (h : NoEq s) : TEnd ('>' :: s) := by
  refine ⟨⟨fun c r e => ?_, NoEq.gt.2 h⟩, binary_greater (NoEq.gt.2 h) _, _, _, rfl, Or.inr rfl⟩
  simp only [List.cons.injEq] at e
  rw [← e.1]; decide

structure TparamGood (a : Ast .tparam) (t : Input) : Prop where
  head : ∃ c u, t = c :: u ∧ P.isSpace c = false ∧ c ∉ [',', '=']
  run : ∀ sp rest, Blank sp → TEnd rest → templateParameter grammar (t ++ (sp ++ rest)) = .ok rest a

/-- The separated list of template arguments. -/
def tparamList : P (List (Ast .tparam)) := P.sepTerm (templateParameter grammar) (P.spCharSp ',') (P.spChar '>')

structure TlistGood (l : Ast (.list .tparam)) (t : Input) : Prop where
  head : ∃ c u, t = c :: u ∧ P.isSpace c = false ∧ c ∉ [',', '=']
  run : ∀ sp rest, Blank sp → NoEq rest → tparamList (t ++ (sp ++ '>' :: rest)) = .ok rest l.items

theorem tparamsOne_good {a : Ast .tparam} {t : Input} (h : TparamGood a t) : TlistGood (.cons a .nil) t := by
  refine ⟨h.head, fun sp rest hsp hr => ?_⟩
  rw [tparamList]
  simp only [Ast.items]
  exact sepTerm_of (h.run sp _ hsp (TEnd.greater hr)) (sepTail_end (spChar_run (b := []) Blank.nil (by decide)))

theorem tparamsCons_good {a : Ast .tparam} {t b b' : Input} {l : Ast (.list .tparam)} {tl : Input}
    (h : TparamGood a t) (hb : Blank b) (hb' : Blank b') (hl : TlistGood l tl) :
    TlistGood (.cons a l) (t ++ b ++ ',' :: b' ++ tl) := by
  obtain ⟨c, u, rfl, hc1, hc2⟩ := h.head
  obtain ⟨d, v, rfl, hd1, hd2⟩ := hl.head
  refine ⟨⟨c, _, rfl, hc1, hc2⟩, fun sp rest hsp hr => ?_⟩
  have et : c :: u ++ b ++ ',' :: b' ++ d :: v ++ (sp ++ '>' :: rest) =
      c :: u ++ (b ++ ',' :: (b' ++ (d :: v ++ (sp ++ '>' :: rest)))) := by
    simp only [List.append_assoc, List.cons_append]
  have hne : ∀ e ∈ [',', '='], (b' ++ (d :: v ++ (sp ++ '>' :: rest))).head? ≠ some e := by
    intro e he
    cases b' with
    | nil =>
      simp only [List.nil_append, List.cons_append, List.head?_cons, ne_eq, Option.some.injEq]
      rintro rfl; exact hd2 he
    | cons x b' =>
      refine blank_head hb' (by simp) ?_
      simp only [List.mem_cons, List.not_mem_nil, or_false] at he
      rcases he with rfl | rfl <;> decide
  rw [et, tparamList]
  simp only [Ast.items]
  refine sepTerm_cons Prog.tparam (h.run b _ hb (TEnd.comma (hne _ (by simp)) (hne _ (by simp))))
    (spChar_err (b := []) Blank.nil (NoSp.cons (by decide)) (by simp))
    (spCharSp_run (b := []) Blank.nil (by decide) hb' (NoSp.cons hd1)) ?_ (hl.run sp rest hsp hr)
  simp only [List.length_cons, List.length_append]; omega

theorem tpNil_good {b : Input} (hb : Blank b) : TparamsGood (.tpList .nil) ('<' :: b ++ ['>']) := by
  refine ⟨⟨_, rfl⟩, fun r hr => ?_⟩
  have et : '<' :: b ++ ['>'] ++ r = '<' :: (b ++ '>' :: r) := by
    simp only [List.append_assoc, List.cons_append, List.nil_append]
  rw [et, templateParameters]
  refine bind_step (charSp_run hb (NoSp.cons (by decide))) (or_l (or_r (bind_err ?_) ?_))
  · rw [P.sepTerm]
    refine bind_err (templateParameter_noValue ?_)
    intro c r e
    simp only [List.cons.injEq] at e
    rw [← e.1]; decide
  · exact bind_step (char_run _ _) (bind_step (internSeq_nil _) rfl)

theorem tpList_good {l : Ast (.list .tparam)} {b t b' : Input} (hlen : l.len < 1024) (hb : Blank b)
    (h : TlistGood l t) (hb' : Blank b') : TparamsGood (.tpList l) ('<' :: b ++ t ++ b' ++ ['>']) := by
  obtain ⟨c, u, hcu, hc1, hc2⟩ := h.head
  refine ⟨⟨_, rfl⟩, fun r hr => ?_⟩
  have et : '<' :: b ++ t ++ b' ++ ['>'] ++ r = '<' :: (b ++ (t ++ (b' ++ '>' :: r))) := by
    simp only [List.append_assoc, List.cons_append, List.nil_append]
  rw [et, templateParameters]
  refine bind_step (charSp_run hb ?_) (or_l (or_l ?_))
  · rw [hcu]; exact NoSp.cons hc1
  · exact bind_step (h.run b' r hb' hr) (bind_step (internSeq_run (bits := 10) l hlen r) rfl)

theorem tpVoid_good : TparamsGood .tpVoid "<, void>".toList := by
  have e : "<, void>".toList = '<' :: ", void>".toList := by decide +kernel
  refine ⟨⟨_, e⟩, fun r hr => ?_⟩
  have hd : ", void>".toList = ',' :: " void>".toList := by decide +kernel
  rw [e, List.cons_append, templateParameters]
  have h0 : ∀ c u, ", void>".toList ++ r = c :: u → c = ',' := by
    intro c u e'
    rw [hd] at e'
    simp only [List.cons_append, List.cons.injEq] at e'
    exact e'.1.symm
  refine bind_step (charSp_run (b := []) (r := ", void>".toList ++ r) Blank.nil ?_) (or_r (or_err (bind_err ?_) (bind_err ?_)) ?_)
  · intro c u e'; rw [h0 c u e']; decide
  · rw [P.sepTerm]
    refine bind_err (templateParameter_noValue ?_)
    intro c u e'; rw [h0 c u e']; decide
  · refine char_err fun e' => ?_
    rw [hd] at e'
    simp at e'
  · exact bind_step (tag_run _ _) rfl

theorem AStarts.nospace {s : Input} (h : AStarts s) : ∃ c r, s = c :: r ∧ P.isSpace c = false ∧ c ∉ [',', '='] := by
  obtain ⟨c, r, rfl, hc⟩ := h.head
  refine ⟨c, r, rfl, h.noSp c r rfl, ?_⟩
  intro hm
  simp only [List.mem_cons, List.not_mem_nil, or_false] at hm
  rcases hm with rfl | rfl <;> revert hc <;> decide

theorem TyGood.head {a : Ast .ty} {t : Input} (h : TyGood a t) :
    ∃ c r, t = c :: r ∧ P.isSpace c = false ∧ c ∉ [',', '='] := by
  have := (h.starts [] rfl).nospace
  rwa [List.append_nil] at this

theorem tpTy_good {a : Ast .ty} {t : Input} (h : TyGood a t) (ha : a.tyOp = false) : TparamGood (.tpTy a) t := by
  refine ⟨h.head, fun sp rest hsp hr => ?_⟩
  rw [templateParameter, gTy]
  refine or_l (bind_step (h.run sp rest hsp hr.stop (by rw [ha]; intro e; cases e)) ?_)
  exact bind_step (hr.tparamEnd (sp := []) Blank.nil) rfl

/-- Try a type as a template argument. -/
def asType : P (Ast .tparam) := do let x ← typeLike; tparamEnd; pure (Ast.tpTy x)

theorem TypeStops.asType {s : Input} (h : TypeStops s) : asType s = .err := by
  rcases h with h | ⟨b, c, u, a, h, hb, hc⟩
  · exact bind_err h
  · obtain ⟨h1, h2, h3⟩ := typeEnders_facts hc
    refine bind_step h (bind_err ?_)
    rw [Cpp.tparamEnd]
    refine bind_step (space0_run hb (NoSp.cons h1)) ?_
    rw [P.peek, P.or, char_err (c := ',') (by rintro ⟨⟩; exact h3 (by simp)), char_err (by rintro ⟨⟩; exact h3 (by simp))]

theorem tpVal_good {v : Ast .value} {t : Input} (h : ValueGood v t) (hv : v.notType = true)
    (hc : v.outer isComma = false) (hg : v.outer isGreater = false) :
    TparamGood (.tpVal v) t := by
  obtain ⟨c, u, hcu, hc1, hc2⟩ := h.head
  refine ⟨⟨c, u, hcu, hc1, fun hm => hc2 ?_⟩, fun sp rest hsp hr => ?_⟩
  · revert hm; simp only [List.mem_cons, List.not_mem_nil, or_false]; tauto
  rw [templateParameter, gTy, gVal]
  refine or_r (h.notType hv sp rest hsp hr.stop.value fun _ => hr.stop).asType ?_
  refine bind_step (h.run _ _ sp rest hsp hr.stop.value ⟨fun e => ?_, fun e => ?_, fun _ => hr.stop⟩ hr.noBinary)
    (bind_step (hr.tparamEnd hsp) rfl)
  · rw [hc] at e; cases e
  · rw [hg] at e; cases e

/-! ## Parameters -/

/-- The separated list of parameters. -/
def paramList : P (List (Option (Ast .ty))) :=
  P.sepTerm (parameterOrEllipsis grammar) (P.spCharSp ',') (P.spChar ')')

def paramTail : P (List (Option (Ast .ty))) :=
  P.sepTermTail (parameterOrEllipsis grammar) (P.spCharSp ',') (P.spChar ')')

structure ParamsGood (l : Ast (.list .ty)) (t : Input) : Prop where
  head : ∃ c u, t = c :: u ∧ P.isSpace c = false ∧ c ∉ [',', '=']
  run : ∀ b rest r ps, Blank b → Stop rest → paramTail rest = .ok r ps →
    paramList (t ++ (b ++ rest)) = .ok r (l.items.map some ++ ps)

theorem param_run {a : Ast .ty} {t sp rest : Input} (h : TyGood a t) (ha : a.tyOp = false) (hsp : Blank sp)
    (hr : Stop rest) : parameterOrEllipsis grammar (t ++ (sp ++ rest)) = .ok rest (some a) := by
  rw [parameterOrEllipsis, gTy]
  exact or_l (bind_step (h.run sp rest hsp hr (by rw [ha]; intro e; cases e)) rfl)

theorem paramsOne_good {a : Ast .ty} {t : Input} (h : TyGood a t) (ha : a.tyOp = false) :
    ParamsGood (.cons a .nil) t := by
  refine ⟨h.head, fun b rest r ps hb hrest htail => ?_⟩
  rw [paramList]
  simp only [Ast.items, List.map_cons, List.map_nil, List.cons_append, List.nil_append]
  exact sepTerm_of (param_run h ha hb hrest) htail

theorem Stop.comma (s : Input) : Stop (',' :: s) := by
  refine ⟨fun d r e => ?_, NoEq.other (by decide) (by decide)⟩
  simp only [List.cons.injEq] at e
  rw [← e.1]; decide

theorem paramsCons_good {a : Ast .ty} {t b b' : Input} {l : Ast (.list .ty)} {tl : Input} (h : TyGood a t)
    (ha : a.tyOp = false) (hb : Blank b) (hb' : Blank b') (hl : ParamsGood l tl) :
    ParamsGood (.cons a l) (t ++ b ++ ',' :: b' ++ tl) := by
  obtain ⟨c, u, hcu, hc1, hc2⟩ := h.head
  obtain ⟨d, v, hdv, hd1, hd2⟩ := hl.head
  refine ⟨⟨c, u ++ b ++ ',' :: b' ++ tl, by rw [hcu]; rfl, hc1, hc2⟩, fun sp rest r ps hsp hrest htail => ?_⟩
  have et : t ++ b ++ ',' :: b' ++ tl ++ (sp ++ rest) = t ++ (b ++ ',' :: (b' ++ (tl ++ (sp ++ rest)))) := by
    simp only [List.append_assoc, List.cons_append]
  rw [et, paramList]
  simp only [Ast.items, List.map_cons, List.cons_append]
  refine sepTerm_cons Prog.param (param_run h ha hb (Stop.comma _))
    (spChar_err (b := []) Blank.nil (NoSp.cons (by decide)) (by simp))
    (spCharSp_run (b := []) Blank.nil (by decide) hb' (by rw [hdv]; exact NoSp.cons hd1)) ?_
    (hl.run sp rest r ps hsp hrest htail)
  simp only [List.length_cons, List.length_append]; omega

theorem foldl_push (l : List (Ast .ty)) : ∀ acc : List (Ast .ty),
    (l.map some).foldl pushParam (acc, false, false) = (acc ++ l, false, false) := by
  induction l with
  | nil => simp
  | cons a l ih =>
    intro acc
    simp only [List.map_cons, List.foldl_cons]
    have : pushParam (acc, false, false) (some a) = (acc ++ [a], false, false) := rfl
    rw [this, ih, List.append_assoc]; rfl

theorem foldl_params (l : List (Ast .ty)) (variadic : Bool) :
    (l.map some ++ (if variadic then [none] else [])).foldl pushParam ([], false, false) = (l, variadic, false) := by
  rw [List.foldl_append, foldl_push, List.nil_append]
  cases variadic <;> rfl

theorem parameterSet_run {l : Ast (.list .ty)} {variadic : Bool} {b t b' c c' s : Input} (hlen : l.len < 256)
    (hb : Blank b) (h : ParamsGood l t) (hb' : Blank b') (hc : Blank c) (hc' : Blank c') :
    parameterSet grammar ('(' :: (b ++ (t ++ (b' ++ ((if variadic then ',' :: c ++ "...".toList ++ c' else []) ++
      ')' :: s))))) = .ok s (l, variadic) := by
  obtain ⟨d, v, hdv, hd1, hd2⟩ := h.head
  have htail : paramTail ((if variadic then ',' :: c ++ "...".toList ++ c' else []) ++ ')' :: s) =
      .ok s (if variadic then [none] else []) := by
    rw [paramTail]
    cases variadic with
    | false => exact sepTail_end (spChar_run (b := []) Blank.nil (by decide))
    | true =>
      have et : (if true = true then ',' :: c ++ "...".toList ++ c' else []) ++ ')' :: s =
          ',' :: (c ++ ("...".toList ++ (c' ++ ')' :: s))) := by
        rw [if_pos rfl]; simp only [List.append_assoc, List.cons_append]
      have e3 : "...".toList = '.' :: "..".toList := by decide +kernel
      rw [et, if_pos rfl]
      refine sepTail_cons (y := c' ++ ')' :: s) (spChar_err (b := []) Blank.nil (NoSp.cons (by decide)) (by simp))
        (spCharSp_run (b := []) Blank.nil (by decide) hc (by rw [e3]; exact NoSp.cons (by decide))) ?_ ?_
        (sepTail_end (spChar_run hc' (by decide)))
      · rw [parameterOrEllipsis, gTy]
        refine or_r (bind_err (typeLike_bad ?_)) (bind_step (tag_run _ _) rfl)
        rw [e3]; exact badHead_cons (by decide) (by decide) (by decide)
      · simp only [List.length_cons, List.length_append]; omega
  have hstop : Stop ((if variadic then ',' :: c ++ "...".toList ++ c' else []) ++ ')' :: s) := by
    cases variadic with
    | false => exact Stop.close (Or.inl rfl)
    | true => exact Stop.comma _
  rw [parameterSet]
  refine bind_step (charSp_run hb (by rw [hdv]; exact NoSp.cons hd1)) (or_l ?_)
  refine bind_step (p := paramList) (h.run b' _ s _ hb' hstop htail) ?_
  rw [foldl_params]
  simp only [if_neg Bool.false_ne_true]
  exact bind_step (internSeq_run (bits := 8) l hlen s) rfl

theorem parameterSet_nil {b s : Input} (hb : Blank b) :
    parameterSet grammar ('(' :: (b ++ ')' :: s)) = .ok s (.nil, false) := by
  rw [parameterSet]
  refine bind_step (charSp_run hb (NoSp.cons (by decide))) (or_r (bind_err ?_) ?_)
  · rw [P.sepTerm]
    refine bind_err ?_
    rw [parameterOrEllipsis, gTy]
    refine or_err (bind_err (typeLike_bad (badHead_cons (by decide) (by decide) (by decide)))) (bind_err ?_)
    exact tag_err_head (c := '.') (cs := "..".toList) (by decide +kernel) (by simp)
  · exact bind_step (char_run _ _) (bind_step (internSeq_nil _) rfl)

/-! ## Signatures -/

/-- What may follow the qualifiers of a function. -/
structure Clean (z : Input) : Prop where
  noSp : NoSp z
  noId : idHead z = false
  ne : ∀ d ∈ ['&', '('], z.head? ≠ some d

theorem SigStop.clean {s : Input} (h : SigStop s) : Clean s := by
  refine ⟨h.noSp, h.noId, fun d hd => h.ne ?_⟩
  revert d; decide

/-- The trailing return type. -/
structure TrailGood (tr : Ast (.opt .ty)) (t : Input) : Prop where
  run : ∀ sp rest, Blank sp → SigStop rest → (tr.isNone = false → Stop rest) → ∃ bb z o,
    t ++ (sp ++ rest) = bb ++ z ∧ Blank bb ∧ Clean z ∧ P.opt (trailingReturn grammar) z = .ok rest o ∧
    Ast.ofOption o = tr

/-- `noexcept`. -/
structure NoexGood (nx : Ast .noexc) (t : Input) : Prop where
  run : ∀ sp rest, Blank sp → Clean rest → ∃ bb z o,
    t ++ (sp ++ rest) = bb ++ z ∧ Blank bb ∧ NoSp z ∧ (idHead z = true → bb ≠ []) ∧
    keywords cvTable z = .err ∧ z.head? ≠ some '&' ∧
    P.opt (spaced (noexceptQ grammar)) z = .ok rest o ∧ o.getD .nxNone = nx

theorem trNone_good : TrailGood .none [] := by
  refine ⟨fun sp rest hsp hr _ => ⟨sp, rest, none, rfl, hsp, hr.clean, opt_none ?_, rfl⟩⟩
  rw [trailingReturn]
  exact bind_err (tag_err_head (c := '-') (cs := ['>']) (by decide +kernel) (hr.ne (by decide)))

theorem trSome_good {b b' : Input} {a : Ast .ty} {t : Input} (hb : Blank b) (hb' : Blank b') (h : TyGood a t)
    (ha : a.tyOp = false) : TrailGood (.some a) (b ++ "->".toList ++ b' ++ t) := by
  have e : "->".toList = ['-', '>'] := by decide +kernel
  refine ⟨fun sp rest hsp hr hs => ⟨b, "->".toList ++ (b' ++ (t ++ (sp ++ rest))), some a, ?_, hb, ?_, opt_some ?_, rfl⟩⟩
  · simp only [List.append_assoc]
  · rw [e]
    refine ⟨NoSp.cons (by decide), rfl, fun d hd => ?_⟩
    simp only [List.mem_cons, List.not_mem_nil, or_false] at hd
    rcases hd with rfl | rfl <;> simp
  · have hst : Stop rest := hs rfl
    rw [trailingReturn, gTy]
    refine bind_step (tag_run _ _) (bind_step (space0_run hb' (h.starts _ (hst.blank_noId hsp)).noSp) ?_)
    exact h.run sp rest hsp hst fun e => by rw [ha] at e; cases e

theorem noexceptWord : ∀ c ∈ "noexcept".toList, isIdCont c = true := by decide +kernel

theorem nxNone_good : NoexGood .nxNone [] := by
  refine ⟨fun sp rest hsp hr => ⟨sp, rest, none, rfl, hsp, hr.noSp, fun h => ?_, ?_, hr.ne _ (by simp),
    opt_none (spaced_err ?_), rfl⟩⟩
  · rw [hr.noId] at h; cases h
  · refine keywords_err cvTable_good ?_
    rw [word_nil hr.noId]; decide +kernel
  · rw [noexceptQ]
    exact bind_err (keyword_err (by decide +kernel) (by rw [word_nil hr.noId]; decide +kernel))

/-- `noexcept`, whatever follows. -/
theorem noex_of {o : Option (Ast .value)} {b u sp rest : Input} (hb : Blank b) (hne : b ≠ [])
    (hu : idHead u = false) (hsp : Blank sp) (hr : Clean rest)
    (h : P.opt (parenValue grammar false true) u = .ok (sp ++ rest) o) :
    ∃ bb z o', b ++ ("noexcept".toList ++ u) = bb ++ z ∧ Blank bb ∧ NoSp z ∧ (idHead z = true → bb ≠ []) ∧
      keywords cvTable z = .err ∧ z.head? ≠ some '&' ∧
      P.opt (spaced (noexceptQ grammar)) z = .ok rest o' ∧ o'.getD .nxNone = .nxSome (Ast.ofOption o) := by
  have e : "noexcept".toList = 'n' :: "oexcept".toList := by decide +kernel
  have hw : word ("noexcept".toList ++ u) = "noexcept".toList := word_append noexceptWord hu
  refine ⟨b, "noexcept".toList ++ u, some (.nxSome (Ast.ofOption o)), rfl, hb, ?_, fun _ => hne, ?_, ?_, opt_some ?_, rfl⟩
  · rw [e]; exact NoSp.cons (by decide)
  · refine keywords_err cvTable_good ?_
    rw [hw]; decide +kernel
  · rw [e]; simp
  · refine spaced_run (b := sp) ?_ hsp hr.noSp
    rw [noexceptQ]
    exact bind_step (keyword_run noexceptWord hu) (bind_step h rfl)

theorem nxPlain_good {b : Input} (hb : Blank b) (hne : b ≠ []) :
    NoexGood (.nxSome .none) (b ++ "noexcept".toList) := by
  refine ⟨fun sp rest hsp hr => ?_⟩
  have := noex_of (o := none) (u := sp ++ rest) hb hne (blank_idHead hsp fun _ => hr.noId) hsp hr (opt_none ?_)
  · rw [List.append_assoc]; exact this
  · rw [parenValue]
    refine bind_err (charSp_err ?_)
    cases sp with
    | nil => exact hr.ne _ (by simp)
    | cons x sp => exact blank_head hsp (by simp) (by decide)

theorem nxArg_good {b c : Input} {v : Ast .value} {t c' : Input} (hb : Blank b) (hne : b ≠ []) (hc : Blank c)
    (h : ValueGood v t) (hv : v.outer isComma = false) (hc' : Blank c') :
    NoexGood (.nxSome (.some v)) (b ++ "noexcept(".toList ++ c ++ t ++ c' ++ [')']) := by
  refine ⟨fun sp rest hsp hr => ?_⟩
  have := noex_of (o := some v) (u := '(' :: (c ++ (t ++ (c' ++ ')' :: (sp ++ rest))))) hb hne rfl hsp hr (opt_some ?_)
  · have e : "noexcept(".toList = "noexcept".toList ++ ['('] := by decide +kernel
    rw [e]
    simp only [List.append_assoc, List.cons_append, List.nil_append]
    exact this
  · rw [parenValue, gVal]
    refine bind_step (charSp_run hc (h.noSp _)) ?_
    have hs : Stop (')' :: (sp ++ rest)) := Stop.close (Or.inl rfl)
    refine bind_step (h.run false true c' (')' :: (sp ++ rest)) hc' hs.value (.stop hv hs) (binary_close (Or.inl rfl))) ?_
    exact bind_step (spChar_run hc' (by decide)) rfl

theorem sigQuals_run {cv : CV} {ref : Ref} {nx : Ast .noexc} {q nt sp rest : Input} (h : SigQuals cv ref q)
    (hnx : NoexGood nx nt) (hsp : Blank sp) (hr : Clean rest) :
    ∃ m y z o, P.space0 (q ++ (nt ++ (sp ++ rest))) = .ok m () ∧
      spaced parseCv m = .ok y cv ∧ spaced parseReference y = .ok z ref ∧
      P.opt (spaced (noexceptQ grammar)) z = .ok rest o ∧ o.getD .nxNone = nx := by
  obtain ⟨b1, ct, b2, hct, hb1, hb2, h1, h2, rfl⟩ := h
  obtain ⟨bb, z, o, e1, hbb, hz1, hz2, hz3, hz4, hz5, ho⟩ := hnx.run sp rest hsp hr
  have step2 : ∃ bb y, b2 ++ (ref.show ++ (nt ++ (sp ++ rest))) = bb ++ y ∧
      Blank bb ∧ NoSp y ∧ (idHead y = true → bb ≠ []) ∧ keywords cvTable y = .err ∧
      spaced parseReference y = .ok z ref := by
    rw [e1]
    by_cases hn : ref = .none
    · subst hn
      refine ⟨bb, z, ?_, hbb, hz1, hz2, hz3, spaced_run (b := []) (reference_none hz4) Blank.nil hz1⟩
      rw [h2 rfl]; rfl
    · have hh : ∃ u, ref.show = '&' :: u := by
        cases ref with
        | none => exact absurd rfl hn
        | lvalue => exact ⟨[], by decide +kernel⟩
        | rvalue => exact ⟨['&'], by decide +kernel⟩
      obtain ⟨u, hu⟩ := hh
      refine ⟨b2, ref.show ++ (bb ++ z), rfl, hb2, ?_, ?_, ?_, spaced_run (b := bb) (reference_run ?_) hbb hz1⟩
      · rw [hu]; exact NoSp.cons (by decide)
      · rw [hu]; intro h; cases h
      · rw [hu]; exact (noWord_head (by decide)).2.2
      · cases bb with
        | nil => exact hz4
        | cons x bb => exact blank_head hbb (by simp) (by decide)
  obtain ⟨bb', y, e2, hbb', hy1, hy2, hy3, hy4⟩ := step2
  have et : b1 ++ ct ++ b2 ++ ref.show ++ (nt ++ (sp ++ rest)) = b1 ++ (ct ++ (bb' ++ y)) := by
    rw [← e2]; simp only [List.append_assoc]
  rw [et]
  by_cases hn : ct = []
  · subst hn
    rw [h1 rfl, cvText_nil hct]
    exact ⟨y, y, z, o, space0_run hbb' hy1, spaced_run (b := []) (cv_none_run hy3) Blank.nil hy1, hy4, hz5, ho⟩
  · have hid : idHead (bb' ++ y) = false := by
      refine blank_idHead hbb' fun e => ?_
      cases hx : idHead y with
      | false => rfl
      | true => exact absurd e (hy2 hx)
    refine ⟨ct ++ (bb' ++ y), y, z, o, space0_run hb1 (cvText_starts hct hn hid).noSp, ?_, hy4, hz5, ho⟩
    refine spaced_run (b := []) ?_ Blank.nil hy1
    have := cv_run hct hbb' (fun e => absurd e hn) hy1 hy2 hy3 (fun _ => trivial)
    rwa [List.append_assoc] at this

theorem abi_run {abi : Option Ident} (h : ∀ i, abi = some i → IsIdent i) (s : Input) :
    P.opt abiTag (abiText abi ++ '(' :: s) =
      .ok ('(' :: s) abi := by
  cases abi with
  | none =>
    refine opt_none ?_
    rw [abiTag, abiText, List.nil_append]
    exact bind_err (tag_err_head (c := '[') (cs := "abi:".toList) (by decide +kernel) (by simp))
  | some i =>
    refine opt_some ?_
    simp only [abiText, List.append_assoc, List.cons_append, List.nil_append]
    rw [abiTag]
    refine bind_step (tag_run _ _) ?_
    exact bind_step (identifier_run (h i rfl) rfl) (bind_step (char_run _ _) rfl)

theorem sig_head (abi : Option Ident) (s : Input) : ∃ c u,
    abiText abi ++ '(' :: s = c :: u ∧
    (c = '(' ∨ abiText abi ++ '(' :: s =
      "[abi:".toList ++ u.drop 4) := by
  cases abi with
  | none => exact ⟨'(', s, rfl, Or.inl rfl⟩
  | some i =>
    have e : "[abi:".toList = ['[', 'a', 'b', 'i', ':'] := by decide +kernel
    refine ⟨'[', 'a' :: 'b' :: 'i' :: ':' :: (i ++ ([']'] ++ '(' :: s)), ?_, Or.inr ?_⟩
    · simp only [abiText, e, List.append_assoc, List.cons_append, List.nil_append]
    · simp only [abiText, e, List.append_assoc, List.cons_append, List.nil_append, List.drop]

/-- A signature whose parameters are read. -/
theorem sig_of {abi : Option Ident} {l : Ast (.list .ty)} {variadic : Bool} {cv : CV} {ref : Ref} {nx : Ast .noexc}
    {tr : Ast (.opt .ty)} {p q nt rt : Input} (ha : ∀ i, abi = some i → IsIdent i) (hq : SigQuals cv ref q)
    (hnx : NoexGood nx nt) (htr : TrailGood tr rt)
    (hp : ∀ s, parameterSet grammar ('(' :: (p ++ s)) = .ok s (l, variadic)) :
    SigGood (.sig abi l variadic cv ref nx tr) (abiText abi ++ '(' :: (p ++ (q ++ (nt ++ rt)))) := by
  refine ⟨sig_head abi _, fun sp rest hsp hr hs => ?_⟩
  have et : (abiText abi ++ '(' :: (p ++ (q ++ (nt ++ rt)))) ++ (sp ++ rest) =
    abiText abi ++ '(' :: (p ++ (q ++ (nt ++ (rt ++ (sp ++ rest))))) := by
    simp only [List.append_assoc, List.cons_append]
  obtain ⟨bb, z0, o', e1, hbb, hz0, h5, h6⟩ := htr.run sp rest hsp hr fun e => hs (by simp [Ast.trails, e])
  obtain ⟨m, y, z, o, h1, h2, h3, h4, h7⟩ := sigQuals_run hq hnx hbb hz0
  rw [et, e1, functionSignature]
  refine bind_step (abi_run ha _) ?_
  refine bind_step (r := m) (a := (l, variadic)) (bind_step (hp _) (bind_step h1 rfl)) ?_
  refine bind_step h2 (bind_step h3 (bind_step h4 (bind_step h5 ?_)))
  rw [h6, h7]; rfl

theorem sig0_good {abi : Option Ident} {b : Input} {cv : CV} {ref : Ref} {q : Input} {nx : Ast .noexc}
    {tr : Ast (.opt .ty)} {nt rt : Input}
    (ha : ∀ i, abi = some i → IsIdent i) (hb : Blank b) (hq : SigQuals cv ref q) (hnx : NoexGood nx nt)
    (htr : TrailGood tr rt) :
    SigGood (.sig abi .nil false cv ref nx tr) (abiText abi ++ '(' :: b ++ ')' :: q ++ nt ++ rt) := by
  have := sig_of (p := b ++ [')']) ha hq hnx htr fun s => by
    simp only [List.append_assoc, List.cons_append, List.nil_append]
    exact parameterSet_nil (s := s) hb
  simp only [List.append_assoc, List.cons_append, List.nil_append] at this ⊢
  exact this

theorem sig_good {abi : Option Ident} {l : Ast (.list .ty)} {variadic : Bool} {b t b' c c' : Input} {cv : CV}
    {ref : Ref} {q : Input} {nx : Ast .noexc} {tr : Ast (.opt .ty)} {nt rt : Input}
    (ha : ∀ i, abi = some i → IsIdent i) (hlen : l.len < 256) (hb : Blank b)
    (h : ParamsGood l t) (hb' : Blank b') (hc : Blank c) (hc' : Blank c') (hq : SigQuals cv ref q)
    (hnx : NoexGood nx nt) (htr : TrailGood tr rt) :
    SigGood (.sig abi l variadic cv ref nx tr)
      (abiText abi ++ '(' :: b ++ t ++ b' ++
        (if variadic then ',' :: c ++ "...".toList ++ c' else []) ++ ')' :: q ++ nt ++ rt) := by
  have hp : ∀ s, parameterSet grammar ('(' :: (b ++ (t ++ (b' ++ ((if variadic then ',' :: c ++ "...".toList ++ c' else []) ++
      ')' :: s))))) = .ok s (l, variadic) := fun s => parameterSet_run (s := s) hlen hb h hb' hc hc'
  generalize (if variadic then ',' :: c ++ "...".toList ++ c' else []) = v at hp ⊢
  have := sig_of (abi := abi) (l := l) (variadic := variadic) (p := b ++ (t ++ (b' ++ (v ++ [')'])))) ha hq hnx htr
    fun s => by
      have := hp s
      simp only [List.append_assoc, List.cons_append, List.nil_append] at this ⊢
      exact this
  simp only [List.append_assoc, List.cons_append, List.nil_append] at this ⊢
  exact this

/-! ## Arguments of calls and attributes -/

theorem Prog.value : Prog (valueLike false true) := Prog.ofG fun n => (grammar_good n).value false true

/-- The separated list of arguments. -/
def argList : P (List (Ast .value)) := P.sepTerm (valueLike false true) (P.spCharSp ',') (P.spChar ')')

structure ValuesGood (l : Ast (.list .value)) (t : Input) : Prop where
  head : ∃ c u, t = c :: u ∧ P.isSpace c = false ∧ c ∉ [',', '=', ')']
  run : ∀ sp rest, Blank sp → argList (t ++ (sp ++ ')' :: rest)) = .ok rest l.items
  params : ∀ p : Ast (.list .ty), AsType l p → ParamsGood p t ∧ p.len = l.len
  refused : Refused l → ∀ sp rest, Blank sp → paramList (t ++ (sp ++ ')' :: rest)) = .err

theorem ValueGood.start {v : Ast .value} {t : Input} (h : ValueGood v t) :
    ∃ c u, t = c :: u ∧ P.isSpace c = false ∧ c ∉ [',', '=', ')'] := by
  obtain ⟨c, u, hcu, hc1, hc2⟩ := h.head
  refine ⟨c, u, hcu, hc1, fun hm => hc2 ?_⟩
  revert hm; simp only [List.mem_cons, List.not_mem_nil, or_false]; tauto

theorem sepTail_err {α : Type} {item : P α} {sep term : P Unit} {s : Input} (h1 : term s = .err) (h2 : sep s = .err) :
    P.sepTermTail item sep term s = .err := by
  rw [P.sepTermTail, h1]
  have : (sep >>= fun _ => item) s = .err := bind_err h2
  simp only [this]

theorem sepTerm_err {α : Type} {item : P α} {sep term : P Unit} {s y : Input} {a : α}
    (hitem : item s = .ok y a) (h : P.sepTermTail item sep term y = .err) : P.sepTerm item sep term s = .err := by
  rw [P.sepTerm]
  exact bind_step hitem (bind_err (p := P.sepTermTail item sep term) h)

theorem bind_fuel {α β : Type} {p : P α} {f : α → P β} {s : Input} (h : p s = .fuel) :
    (p >>= f) s = .fuel := by rw [P.bind_run, h]

/-- A list of parameters fails when its second parameter does. -/
theorem sepTerm_cons_err {α : Type} {item : P α} (hp : Prog item) {sep term : P Unit} {s y z : Input} {a : α}
    (hitem : item s = .ok y a) (hterm : term y = .err) (hsep : sep y = .ok z ())
    (hlt : z.length < y.length) (h : P.sepTerm item sep term z = .err) :
    P.sepTerm item sep term s = .err := by
  refine sepTerm_err hitem ?_
  rw [P.sepTermTail, hterm]
  have hb : (sep >>= fun _ => item) y = item z := bind_step hsep rfl
  simp only [hb]
  cases hz : item z with
  | err => rfl
  | panic => rw [P.sepTerm, bind_panic hz] at h; cases h
  | fuel => rw [P.sepTerm, bind_fuel hz] at h; cases h
  | ok r b =>
    have hlt' : r.length < y.length := by
      have := (hp _ _ _ hz).2
      omega
    simp only [hlt', if_true]
    cases ht : P.sepTermTail item sep term r with
    | err => rfl
    | panic =>
      rw [P.sepTerm, bind_step hz (bind_panic (p := P.sepTermTail item sep term) ht)] at h; cases h
    | fuel =>
      rw [P.sepTerm, bind_step hz (bind_fuel (p := P.sepTermTail item sep term) ht)] at h; cases h
    | ok r' as => rw [sepTerm_of hz ht] at h; cases h

/-- A value that is no type is no parameter. -/
theorem ValueGood.noParam {v : Ast .value} {t : Input} (h : ValueGood v t) (hv : v.notType = true) (hdt : v.dots = false) {sp rest : Input}
    (hsp : Blank sp) (hr : Stop rest) : paramList (t ++ (sp ++ rest)) = .err := by
  obtain ⟨c, u, hcu, hc1, hc2⟩ := h.head
  rw [paramList]
  rcases h.notType hv sp rest hsp hr.value fun _ => hr with h1 | ⟨b, d, w, a, h1, hb, hd⟩
  · rw [P.sepTerm]
    refine bind_err ?_
    rw [parameterOrEllipsis, gTy]
    refine or_err (bind_err h1) (bind_err (tag_err_head (c := '.') (cs := "..".toList) (by decide +kernel) ?_))
    rw [hcu]
    rintro ⟨⟩
    exact h.dot hdt u hcu
  · obtain ⟨h3, h4, h5⟩ := typeEnders_facts hd
    refine sepTerm_err (y := b ++ d :: w) (a := some a) ?_ (sepTail_err ?_ ?_)
    · rw [parameterOrEllipsis, gTy]
      exact or_l (bind_step h1 rfl)
    · exact spChar_err hb (NoSp.cons h3) (by rintro ⟨⟩; exact h5 (by simp))
    · rw [P.spCharSp]
      exact bind_step (space0_run hb (NoSp.cons h3)) (bind_err (char_err (by rintro ⟨⟩; exact h5 (by simp))))

theorem valuesOne_good {v : Ast .value} {t : Input} (h : ValueGood v t) (hv : v.outer isComma = false) :
    ValuesGood (.cons v .nil) t := by
  refine ⟨h.start, fun sp rest hsp => ?_, fun p hp => ?_, fun hr sp rest hsp => ?_⟩
  · have hs : Stop (')' :: rest) := Stop.close (Or.inl rfl)
    rw [argList]
    simp only [Ast.items]
    exact sepTerm_of (h.run false true sp _ hsp hs.value (.stop hv hs) (binary_close (Or.inl rfl)))
      (sepTail_end (spChar_run hsp (by decide)))
  · cases hp with
    | cons v l a p h1 h2 =>
      cases h2
      obtain ⟨h3, h4⟩ := h.asTy a h1
      exact ⟨paramsOne_good h3 h4, by simp only [Ast.len]⟩
  · cases hr with
    | here v l h1 h1' => exact h.noParam h1 h1' hsp (Stop.close (Or.inl rfl))
    | later v a l h1 h2 => cases h2

theorem valuesCons_good {v : Ast .value} {t b b' : Input} {l : Ast (.list .value)} {tl : Input}
    (h : ValueGood v t) (hv : v.outer isComma = false) (hb : Blank b) (hb' : Blank b') (hl : ValuesGood l tl) :
    ValuesGood (.cons v l) (t ++ b ++ ',' :: b' ++ tl) := by
  obtain ⟨c, u, hcu, hc1, hc2⟩ := h.start
  obtain ⟨d, w, hdw, hd1, hd2⟩ := hl.head
  have et : ∀ sp rest, t ++ b ++ ',' :: b' ++ tl ++ (sp ++ ')' :: rest) =
      t ++ (b ++ ',' :: (b' ++ (tl ++ (sp ++ ')' :: rest)))) := by
    intro sp rest; simp only [List.append_assoc, List.cons_append]
  refine ⟨⟨c, u ++ b ++ ',' :: b' ++ tl, by rw [hcu]; rfl, hc1, hc2⟩, fun sp rest hsp => ?_, fun p hp => ?_,
    fun hr sp rest hsp => ?_⟩
  · have hne : ∀ e ∈ [',', '='], (b' ++ (tl ++ (sp ++ ')' :: rest))).head? ≠ some e := by
      intro e he
      cases b' with
      | nil =>
        rw [hdw]
        simp only [List.nil_append, List.cons_append, List.head?_cons, ne_eq, Option.some.injEq]
        rintro rfl
        simp only [List.mem_cons, List.not_mem_nil, or_false] at he
        rcases he with rfl | rfl <;> exact hd2 (by simp)
      | cons x b' =>
        refine blank_head hb' (by simp) ?_
        simp only [List.mem_cons, List.not_mem_nil, or_false] at he
        rcases he with rfl | rfl <;> decide
    rw [et, argList]
    simp only [Ast.items]
    refine sepTerm_cons Prog.value (h.run false true b _ hb (Stop.comma _).value (.stop hv (Stop.comma _))
      (binary_comma (hne _ (by simp)) (hne _ (by simp)) _))
      (spChar_err hb (NoSp.cons (by decide)) (by simp))
      (spCharSp_run hb (by decide) hb' (by rw [hdw]; exact NoSp.cons hd1)) ?_ (hl.run sp rest hsp)
    simp only [List.length_cons, List.length_append]; omega
  · cases hp with
    | cons v l a p h1 h2 =>
      obtain ⟨h3, h4⟩ := h.asTy a h1
      obtain ⟨h5, h6⟩ := hl.params p h2
      exact ⟨paramsCons_good h3 h4 hb hb' h5, by simp only [Ast.len, h6]⟩
  · rw [et]
    cases hr with
    | here v l h1 h1' => exact h.noParam h1 h1' hb (Stop.comma _)
    | later v a l h1 h2 =>
      obtain ⟨h3, h4⟩ := h.asTy a h1
      rw [paramList]
      refine sepTerm_cons_err Prog.param (param_run h3 h4 hb (Stop.comma _))
        (spChar_err (b := []) Blank.nil (NoSp.cons (by decide)) (by simp))
        (spCharSp_run (b := []) Blank.nil (by decide) hb' (by rw [hdw]; exact NoSp.cons hd1)) ?_
        (hl.refused h2 sp rest hsp)
      simp only [List.length_cons, List.length_append]; omega

theorem args0_good {b : Input} (hb : Blank b) : ArgsGood .nil ('(' :: b ++ [')']) := by
  have et : ∀ r, '(' :: b ++ [')'] ++ r = '(' :: (b ++ ')' :: r) := by
    intro r; simp only [List.append_assoc, List.cons_append, List.nil_append]
  refine ⟨fun r => ?_, ⟨_, rfl⟩, fun p hp r => ?_, fun hr => by cases hr⟩
  · rw [et, functionCall, gVal]
    refine bind_step (charSp_run hb (NoSp.cons (by decide))) (or_r (bind_err ?_) ?_)
    · rw [P.sepTerm]
      refine bind_err (valueLike_noValue _ _ ?_)
      intro c r e
      simp only [List.cons.injEq] at e
      rw [← e.1]; decide
    · exact bind_step (char_run _ _) (internSeq_nil _)
  · cases hp
    rw [et]
    exact parameterSet_nil hb

theorem args_good {l : Ast (.list .value)} {b t b' : Input} (hlen : l.len < 64) (hb : Blank b)
    (h : ValuesGood l t) (hb' : Blank b') : ArgsGood l ('(' :: b ++ t ++ b' ++ [')']) := by
  obtain ⟨c, u, hcu, hc1, hc2⟩ := h.head
  have et : ∀ r, '(' :: b ++ t ++ b' ++ [')'] ++ r = '(' :: (b ++ (t ++ (b' ++ ')' :: r))) := by
    intro r; simp only [List.append_assoc, List.cons_append, List.nil_append]
  refine ⟨fun r => ?_, ⟨_, rfl⟩, fun p hp r => ?_, fun hr r => ?_⟩
  · rw [et, functionCall, gVal]
    refine bind_step (charSp_run hb ?_) (or_l ?_)
    · rw [hcu]; exact NoSp.cons hc1
    · exact bind_step (h.run b' r hb') (internSeq_run (bits := 6) l hlen r)
  · obtain ⟨h1, h2⟩ := h.params p hp
    rw [et]
    exact parameterSet_run (variadic := false) (c := []) (c' := []) (by omega) hb h1 hb' Blank.nil Blank.nil
  · rw [et, parameterSet]
    refine bind_step (charSp_run hb ?_) (or_err (bind_err ?_) (bind_err (char_err ?_)))
    · rw [hcu]; exact NoSp.cons hc1
    · exact h.refused hr b' r hb'
    · rw [hcu]; rintro ⟨⟩; exact hc2 (by simp)

end Verif.Cpp
