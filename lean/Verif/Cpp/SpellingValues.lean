/-
C63: values read back what they spell, when their parts do.
-/
import Verif.Cpp.SpellingArgs

set_option autoImplicit false
set_option linter.unusedVariables false
set_option linter.unusedSimpArgs false

namespace Verif.Cpp

/-- A sign that is not followed by a digit is no literal. -/
theorem sign_literal_err {c : Char} (hc : c = '-' ∨ c = '+') {s : Input} (h : NoDigit s) : literal (c :: s) = .err := by
  rw [literal]
  refine bind_err (or_err ?_ (bind_err ?_))
  · rw [integer]
    refine bind_err (or_err (bind_err ?_) (bind_err (uint_err (noDigit_cons (by rcases hc with rfl | rfl <;> decide)))))
    rw [int64]
    rcases hc with rfl | rfl
    · refine bind_step (r := s) (a := true) ?_ (mapOpt_err' (takeWhile1_err h))
      exact or_l (bind_step (r := s) (a := ()) (tag_run "-" s) rfl)
    · refine bind_step (r := s) (a := false) ?_ (mapOpt_err' (takeWhile1_err h))
      refine or_r (bind_err (tag_err_head (c := '-') (cs := []) (by decide +kernel) (by simp))) ?_
      exact or_l (bind_step (r := s) (a := ()) (tag_run "+" s) rfl)
  · rw [character]
    rcases hc with rfl | rfl
    · refine bind_step (r := '-' :: s) (a := none) (opt_none rfl) (bind_err (char_err (by simp)))
    · refine bind_step (r := '+' :: s) (a := none) (opt_none rfl) (bind_err (char_err (by simp)))

/-! ## Ends of values -/

theorem VStop.ne {s : Input} (h : VStop s) {d : Char} (hd : d ∉ ':' :: stops) : s.head? ≠ some d := by
  cases s with
  | nil => simp
  | cons c r =>
    intro e
    simp only [List.head?_cons, Option.some.injEq] at e
    subst e
    exact hd (h.head c r rfl)

theorem vstop_facts {c : Char} (h : c ∈ ':' :: stops) : isIdCont c = false ∧ P.isSpace c = false ∧ isIdStart c = false ∧
    c.isDigit = false := by
  simp only [stops, List.mem_cons, List.not_mem_nil, or_false] at h
  rcases h with rfl | rfl | rfl | rfl | rfl | rfl <;> decide

theorem VStop.noId {s : Input} (h : VStop s) : idHead s = false :=
  idHead_of_noword fun c r e => (vstop_facts (h.head c r e)).1

theorem VStop.noSp {s : Input} (h : VStop s) : NoSp s := fun c r e => (vstop_facts (h.head c r e)).2.1

theorem VStop.blank_noId {sp s : Input} (h : VStop s) (hsp : Blank sp) : idHead (sp ++ s) = false :=
  blank_idHead hsp fun _ => h.noId

theorem VStop.noColon {s : Input} (h : VStop s) : P.tag "::" s = .err := by
  refine tag_err fun r e => ?_
  have : "::".toList = [':', ':'] := by decide +kernel
  rw [this] at e
  exact h.noColons r e

theorem VStop.cvOrRef {s : Input} (h : VStop s) : cvOrRef s = .err :=
  cvOrRef_err (keywords_noId cvTable_start h.noId) (h.ne (by decide))

/-- No scope, after the signature if any. -/
def noColons (s : Input) : Prop :=
  ∃ r k, P.many0 (do P.space0; cvOrRef : P Unit) s = .ok r k ∧ P.tag "::" r = .err

theorem noColons_of {b s : Input} (hb : Blank b) (hs : NoSp s) (h : Cpp.cvOrRef s = .err) (ht : b = [] → P.tag "::" s = .err) :
    noColons (b ++ s) := by
  refine ⟨b ++ s, [], many0_err (skip_err hb hs h), ?_⟩
  cases b with
  | nil => exact ht rfl
  | cons x b => exact colon_tag (blank_head hb (by simp) (by decide))

theorem noColons_head {b : Input} {c : Char} {s : Input} (hb : Blank b) (h1 : P.isSpace c = false) (h2 : isIdCont c = false)
    (h3 : c ≠ '&') (h4 : c ≠ ':') : noColons (b ++ c :: s) :=
  noColons_of hb (NoSp.cons h1) (cvOrRef_err (noWord_head h2).2.2 (by rintro ⟨⟩; exact h3 rfl))
    fun _ => colon_tag (by rintro ⟨⟩; exact h4 rfl)

theorem VStop.noColons' {sp s : Input} (h : VStop s) (hsp : Blank sp) : Cpp.noColons (sp ++ s) :=
  noColons_of hsp h.noSp h.cvOrRef fun _ => h.noColon

theorem scopeEnd_none {s : Input} (h1 : functionSignature grammar s = .err) (h2 : noColons s) : scopeEnd grammar s = .err := by
  obtain ⟨r, k, h3, h4⟩ := h2
  rw [scopeEnd]
  exact bind_step (opt_none h1) (bind_step h3 (bind_err h4))

theorem VStop.uidEnd {sp s : Input} (h : VStop s) (hsp : Blank sp) : UidEnd (sp ++ s) := by
  refine ⟨h.blank_noId hsp, ?_, NoEq.blank hsp h.noEq⟩
  refine bind_step (space0_run hsp h.noSp) (bind_step (cv_none_run (keywords_noId cvTable_start h.noId)) ?_)
  exact templateParameters_err (h.ne (by decide))

theorem VStop.noSig {sp s : Input} (h : VStop s) (hsp : Blank sp) : functionSignature grammar (sp ++ s) = .err := by
  cases sp with
  | nil =>
    cases s with
    | nil => exact functionSignature_err (by simp) (by intro u e; simp at e)
    | cons c s =>
      refine sig_err_head ?_ ?_ <;> (rintro rfl; exact absurd (h.head _ _ rfl) (by decide))
  | cons x sp => exact blank_noSig hsp (by simp)

/-- The end of a value, after blanks. -/
theorem VStop.nameEnd {sp s : Input} (h : VStop s) (hsp : Blank sp) : NameEnd (sp ++ s) :=
  ⟨h.uidEnd hsp, scopeEnd_none (h.noSig hsp) (h.noColons' hsp)⟩

/-! ## Texts that are no values -/

theorem valueLike_none {s : Input} (ac ag : Bool) (h1 : literal s = .err) (h2 : newExpression grammar s = .err)
    (h3 : s.head? ≠ some 's') (h4 : s.head? ≠ some 'd') (h5 : idExpression grammar s = .err)
    (h6 : unaryOp grammar ac ag s = .err) (h7 : s.head? ≠ some '(') (h8 : ∀ r, s ≠ '.' :: '.' :: '.' :: r) :
    valueLike ac ag s = .err := by
  rw [valueLike_eq, stepValueLike]
  refine bind_err ?_
  rw [valueHeader]
  refine or_err (bind_err h1) (or_err (bind_err h2) ?_)
  refine or_err (ofType_err (tag_err_head (c := 's') (cs := "izeof(".toList) (by decide +kernel) h3)) ?_
  refine or_err (ofType_err (tag_err_head (c := 'd') (cs := "eclval(".toList) (by decide +kernel) h4)) ?_
  refine or_err (bind_err h5) (or_err h6 ?_)
  refine or_err (bind_err (bind_err (charSp_err h7))) (bind_err (tag_err fun r e => h8 r ?_))
  have : "...".toList = ['.', '.', '.'] := by decide +kernel
  rw [e, this]; rfl

/-- A unary operator is none of these characters. -/
theorem unaryPrefix_none {c : Char} {s : Input} (h1 : isIdCont c = false) (h2 : symbolOf c = none ∨ c ∈ ['<', '>', '=', ',', '/', '%', '^', '|'])
    (h3 : c ≠ '(') : unaryPrefix grammar (c :: s) = .err := by
  have hw : word (c :: s) = [] := word_nil h1
  have hn : ∀ d, d ∈ ['+', '-'] → c ≠ d := by
    rintro d hd rfl
    simp only [List.mem_cons, List.not_mem_nil, or_false] at hd
    rcases hd with rfl | rfl <;> revert h2 <;> decide
  rw [unaryPrefix]
  refine or_err (spaced_err (or_err (or_err ?_ ?_) ?_)) (bind_err (or_err ?_ ?_))
  · exact bind_err (charSp_err (by rintro ⟨⟩; exact h3 rfl))
  · refine bind_err (incDec_err ?_ ?_)
    · rintro r ⟨⟩; exact hn '+' (by simp) rfl
    · rintro r ⟨⟩; exact hn '-' (by simp) rfl
  · rw [unarySymbol]
    refine bind_err ?_
    rcases h2 with h2 | h2
    · exact verify_err' (mapOpt_err (r := s) (a := c) rfl h2)
    · simp only [List.mem_cons, List.not_mem_nil, or_false] at h2
      rcases h2 with rfl | rfl | rfl | rfl | rfl | rfl | rfl | rfl <;> rfl
  · exact bind_err (keyword_err (by decide +kernel) (by rw [hw]; decide +kernel))
  · exact bind_err (keyword_err (by decide +kernel) (by rw [hw]; decide +kernel))

theorem literal_head {c : Char} {s : Input} (h1 : c ∉ ['-', '+', '\'']) (h2 : isIdCont c = false) : literal (c :: s) = .err := by
  refine literal_err (by rintro ⟨⟩; exact h1 (by simp)) (by rintro ⟨⟩; exact h1 (by simp)) ?_ fun r => ?_
  · exact noDigit_of_idHead (r := c :: s) h2
  · refine ⟨?_, ?_, ?_, ?_, ?_⟩
    · rintro ⟨⟩; exact h1 (by simp)
    all_goals (rintro ⟨⟩; revert h2; decide)

theorem colon_noTag {s : Input} (h : ∀ r, s ≠ ':' :: r) : P.tag "::" (':' :: s) = .err := by
  have e2 : "::".toList = [':', ':'] := by decide +kernel
  refine tag_err fun r e => ?_
  rw [e2] at e
  simp only [List.cons_append, List.cons.injEq, true_and, List.nil_append] at e
  exact h r e

theorem idExpression_colon {s : Input} (h : ∀ r, s ≠ ':' :: r) : idExpression grammar (':' :: s) = .err := by
  rw [idExpression]
  refine bind_step (r := ':' :: s) (a := (.path false .nil, none)) ?_ rfl
  rw [protoIdExpression]
  refine bind_step (opt_none (colon_noTag h)) ?_
  refine bind_step (p := protoLoop (scopeOrUid grammar)) (r := ':' :: s) (a := ([], none)) ?_ (bind_step (internSeq_nil _) rfl)
  rw [protoLoop]
  have : scopeOrUid grammar (':' :: s) = .err := by
    rw [scopeOrUid]
    refine bind_err ?_
    rw [unqualifiedId, P.byHead]
    simp only [List.head?_cons]
    exact bind_err (identifier_err (by rintro c r ⟨⟩; decide))
  rw [this]

/-- A colon starts no value, unless there are two of them. -/
theorem valueLike_colon (ac ag : Bool) {s : Input} (h : ∀ r, s ≠ ':' :: r) : valueLike ac ag (':' :: s) = .err := by
  refine valueLike_none ac ag (literal_head (by decide) (by decide)) ?_ (by simp) (by simp) (idExpression_colon h)
    (bind_err (unaryPrefix_none (by decide) (Or.inl (by decide)) (by decide))) (by simp) (by simp)
  rw [newExpression]
  exact bind_step (opt_none (colon_noTag h)) (bind_err (tag_err_head (c := 'n') (cs := "ew".toList) (by decide +kernel) (by simp)))

theorem valueLike_dot (ac ag : Bool) {s : Input} (h : ∀ r, s ≠ '.' :: r) : valueLike ac ag ('.' :: s) = .err := by
  refine valueLike_none ac ag (literal_head (by decide) (by decide)) (not_new_head (by simp) (by simp)) (by simp) (by simp)
    (idExpression_bad (badHead_cons (by decide) (by decide) (by decide)))
    (bind_err (unaryPrefix_none (by decide) (Or.inl (by decide)) (by decide))) (by simp) ?_
  rintro r ⟨⟩
  exact h _ rfl

/-- `!=` starts no value. -/
theorem valueLike_unequal (ac ag : Bool) (s : Input) : valueLike ac ag ('!' :: '=' :: s) = .err := by
  refine valueLike_none ac ag (literal_head (by decide) (by decide)) (not_new_head (by simp) (by simp)) (by simp) (by simp)
    (idExpression_bad (badHead_cons (by decide) (by decide) (by decide))) ?_ (by simp) (by simp)
  rw [unaryOp]
  refine bind_step (r := '=' :: s) (a := .arith (.basic .not false false)) ?_ ?_
  · rw [unaryPrefix]
    refine or_l (spaced_run (b := []) (or_r (or_err ?_ (bind_err (incDec_err (by simp) (by simp)))) ?_) Blank.nil (NoSp.cons (by decide)))
    · exact bind_err (charSp_err (by simp))
    · rw [unarySymbol]; rfl
  · refine bind_step (space0_id (NoSp.cons (by decide))) ?_
    rw [gVal]
    refine bind_err (valueLike_noValue ac ag ?_)
    rintro c r ⟨⟩; decide

theorem VStop.noValue' {s : Input} (h : VStop s) (ac ag : Bool) : valueLike ac ag s = .err := by
  cases s with
  | nil => exact valueLike_noValue ac ag (by intro c r e; cases e)
  | cons c s =>
    have hc := h.head c s rfl
    simp only [List.mem_cons, stops, List.not_mem_nil, or_false] at hc
    rcases hc with rfl | hc
    · refine valueLike_colon ac ag ?_
      rintro r rfl
      exact h.noColons r rfl
    · refine valueLike_noValue ac ag ?_
      rintro d r ⟨⟩
      rcases hc with rfl | rfl | rfl | rfl | rfl <;> decide

/-- A sign at the end is no value. -/
theorem valueLike_sign (ac ag : Bool) {c : Char} (hc : c = '+' ∨ c = '-') {sp s : Input} (hsp : Blank sp) (h : VStop s) :
    valueLike ac ag (c :: (sp ++ s)) = .err := by
  have hne : ∀ d, d ∉ ['+', '-'] → (c :: (sp ++ s)).head? ≠ some d := by
    rintro d hd ⟨⟩
    rcases hc with rfl | rfl <;> exact hd (by simp)
  have hdbl : ∀ d r, P.isSpace d = false → d ∉ ':' :: stops → sp ++ s ≠ d :: r := by
    intro d r h1 h2 e
    cases sp with
    | nil => exact h.ne h2 (by rw [show s = d :: r from e]; rfl)
    | cons x sp => exact blank_head (s := s) hsp (by simp) h1 (by rw [e]; rfl)
  refine valueLike_none ac ag ?_ (not_new_head (hne _ (by decide)) (hne _ (by decide))) (hne _ (by decide)) (hne _ (by decide))
    (idExpression_bad ?_) ?_ (hne _ (by decide)) ?_
  · exact sign_literal_err (hc.symm) (noDigit_of_idHead (h.blank_noId hsp))
  · rcases hc with rfl | rfl <;> exact badHead_cons (by decide) (by decide) (by decide)
  · rw [unaryOp]
    have : ∃ o, unaryPrefix grammar (c :: (sp ++ s)) = .ok s o := by
      rw [unaryPrefix]
      rcases hc with rfl | rfl
      · refine ⟨.arith (.basic .addPlus false false), or_l (spaced_run (b := sp) (or_r (or_err ?_ (bind_err (incDec_err ?_ ?_))) ?_) hsp h.noSp)⟩
        · exact bind_err (charSp_err (by simp))
        · intro r e; simp only [List.cons.injEq, true_and] at e; exact hdbl _ _ (by decide) (by decide) e
        · intro r e; simp at e
        · rw [unarySymbol]; rfl
      · refine ⟨.arith (.basic .subNeg false false), or_l (spaced_run (b := sp) (or_r (or_err ?_ (bind_err (incDec_err ?_ ?_))) ?_) hsp h.noSp)⟩
        · exact bind_err (charSp_err (by simp))
        · intro r e; simp at e
        · intro r e; simp only [List.cons.injEq, true_and] at e; exact hdbl _ _ (by decide) (by decide) e
        · rw [unarySymbol]; rfl
    obtain ⟨o, ho⟩ := this
    refine bind_step ho (bind_step (space0_id h.noSp) ?_)
    rw [gVal]
    exact bind_err (h.noValue' ac ag)
  · intro r e
    simp only [List.cons.injEq] at e
    rcases hc with rfl | rfl <;> exact absurd e.1 (by decide)

/-! ## Headers -/

/-- What may follow a header that ends before what follows. -/
structure HEnd (h : Ast .header) (r : Input) : Prop where
  noId : idHead r = false
  quote : r.head? ≠ some '\''
  name : h.isName = true → NameEnd r
  cast : ∀ v, h = .hParen v → v.notType = true ∨ ((∃ a : Ast .ty, AsType v a) ∧
    ∃ b z, r = b ++ z ∧ Blank b ∧ NoSp z ∧ ∀ ac ag, valueLike ac ag z = .err)

structure HeaderGood (h : Ast .header) (t : Input) : Prop where
  head : ∃ c u, t = c :: u ∧ P.isSpace c = false ∧ c ∉ [',', '=', '<', '>', ')', ']']
  dot : h.headerDots = false → ∀ u, t ≠ '.' :: u
  words : ∀ r, idHead r = false → ∀ w ∈ hardReserved, word (t ++ r) ≠ w.toList
  notType : h.headerNotType = true → ∀ r, idHead r = false → TypeStops (t ++ r)
  name : ∀ i, h = .hId i → IdGood i t ∧ i.idOp = false ∧ i.idConv = false
  atom : h.isOpen = false → ∀ ac ag r, HEnd h r → valueHeader grammar ac ag (t ++ r) = .ok r h
  all : h.isOpen = true → ∀ ac ag sp rest, Blank sp → VStop rest → Fits h ac ag rest → binaryExprMiddle ac ag rest = .err →
    valueHeader grammar ac ag (t ++ (sp ++ rest)) = .ok (sp ++ rest) h

/-- A start other than a dot. -/
theorem head_nodot {t : Input} (h : ∃ c u, t = c :: u ∧ P.isSpace c = false ∧ c ∉ [',', '=', '<', '>', ')', ']', '.']) :
    (∃ c u, t = c :: u ∧ P.isSpace c = false ∧ c ∉ [',', '=', '<', '>', ')', ']']) ∧ ∀ u, t ≠ '.' :: u := by
  obtain ⟨c, u, rfl, h1, h2⟩ := h
  simp only [List.mem_cons, List.not_mem_nil, or_false, not_or] at h2
  refine ⟨⟨c, u, rfl, h1, ?_⟩, ?_⟩
  · simp only [List.mem_cons, List.not_mem_nil, or_false, not_or]
    exact ⟨h2.1, h2.2.1, h2.2.2.1, h2.2.2.2.1, h2.2.2.2.2.1, h2.2.2.2.2.2.1⟩
  · intro x e
    simp only [List.cons.injEq] at e
    exact h2.2.2.2.2.2.2 e.1

theorem hard_start : ∀ w ∈ hardReserved, ∃ c cs, w.toList = c :: cs ∧ isIdStart c = true := by
  have : ∀ w ∈ hardReserved, (w.toList.head?.any isIdStart) = true := by decide +kernel
  intro w hw
  have h := this w hw
  cases e : w.toList with
  | nil => rw [e] at h; cases h
  | cons c cs => rw [e] at h; exact ⟨c, cs, rfl, by simpa using h⟩

theorem hard_head {c : Char} {s : Input} (h : isIdStart c = false) : ∀ w ∈ hardReserved, word (c :: s) ≠ w.toList := by
  intro w hw e
  obtain ⟨d, cs, h1, h2⟩ := hard_start w hw
  rw [h1, word, List.takeWhile_cons] at e
  split at e
  · simp only [List.cons.injEq] at e
    rw [e.1, h2] at h; cases h
  · cases e

/-- A name is read as a type, up to a character that ends it. -/
theorem typeLike_ender {i : Ast .idExpr} {t : Input} (hid : IdGood i t) (hop : i.idOp = false) (hcv : i.idConv = false)
    {b : Input} {c : Char} {u : Input} (hb : Blank b) (hc : c ∈ typeEnders) (hn : NameEnd (b ++ c :: u)) :
    typeLike (t ++ (b ++ c :: u)) = .ok (c :: u) (.ty .nil CV.none (.stId i) .nil) := by
  obtain ⟨h1, h2, h3⟩ := typeEnders_facts hc
  have hs := stId_good hid
  have hk := hs.cv _ hn.noId
  have hst := hs.starts _ hn.noId
  have hr := hs.run b (c :: u) hb (NoSp.cons h1) hn (noWord_head h2).1 (by simp [Ast.simpleOp, hop])
    (by simp [Ast.simpleConv, hcv])
  rw [typeLike_eq, stepTypeLike]
  refine bind_step (r := t ++ (b ++ c :: u)) (a := .nil) ?_ ?_
  · refine spaced_run (b := []) ?_ Blank.nil hst.noSp
    rw [attributes]
    exact bind_step (opt_none (bind_err hst.attribute)) (internSeq_nil _)
  refine bind_step (spaced_run (b := []) (cv_none_run hk) Blank.nil hst.noSp) ?_
  refine bind_step hr ?_
  rw [stepDeclarator]
  refine bind_step (r := c :: u) (a := .nil) ?_ rfl
  refine bind_step (many0_err (spaced_err ?_)) (internSeq_nil _)
  have hne : ∀ d, d ∉ typeEnders → (c :: u).head? ≠ some d := by
    rintro d hd ⟨⟩; exact hd hc
  rw [declOperator, P.byHead]
  simp only [hne '&' (by decide), hne '*' (by decide), hne '(' (by decide), hne '[' (by decide), hne '_' (by decide),
    hne 'c' (by decide), hne 'v' (by decide), or_self, if_false]
  refine memberPointer_bad (badHead_cons ?_ ?_ h1) (hne _ (by decide))
  · cases hx : isIdStart c with
    | false => rfl
    | true => rw [idStart_cont hx] at h2; cases h2
  · intro hm; apply h3
    revert hm; simp only [List.mem_cons, List.not_mem_nil, or_false]; tauto

/-! ## Literals -/

theorem litText_head {l : Literal} {t : Input} {K : Char → Prop} (h : LitText K l t) :
    (∃ c u, t = c :: u ∧ (c.isDigit = true ∨ c = '-' ∨ c = '\'')) ∨
    ∃ pre ∈ ["u8", "u", "U", "L"], ∃ u, t = pre.toList ++ '\'' :: u := by
  induction h with
  | pos n us hn hu =>
    obtain ⟨c, u, e, hc⟩ := digits_head n us
    exact Or.inl ⟨c, u, e, Or.inl hc⟩
  | neg n us h0 hn hu => exact Or.inl ⟨'-', _, rfl, Or.inr (Or.inl rfl)⟩
  | large n us hn hn' hu =>
    obtain ⟨c, u, e, hc⟩ := digits_head n us
    exact Or.inl ⟨c, u, e, Or.inl hc⟩
  | chr pre c t hp _ hc =>
    by_cases he : pre = ""
    · subst he
      exact Or.inl ⟨'\'', t ++ ['\''], rfl, Or.inr (Or.inr rfl)⟩
    · refine Or.inr ⟨pre, ?_, t ++ ['\''], by simp only [List.append_assoc, List.cons_append]⟩
      simpa [he] using hp
  | suffix v t i h hi hl ih =>
    rcases ih with ⟨c, u, rfl, hc⟩ | ⟨pre, hp, u, rfl⟩
    · exact Or.inl ⟨c, u ++ i, rfl, hc⟩
    · exact Or.inr ⟨pre, hp, u ++ i, by simp only [List.append_assoc, List.cons_append]⟩

theorem prefix_name : ∀ w ∈ ["u8", "u", "U", "L"], (∀ c ∈ w.toList, isIdCont c = true) ∧
    (w.toList.head?.any isIdStart = true) ∧ ∀ x ∈ reserved, w.toList ≠ x.toList := by decide +kernel

theorem prefix_isName {w : String} (h : w ∈ ["u8", "u", "U", "L"]) : IsName w.toList := by
  obtain ⟨h1, h2, h3⟩ := prefix_name w h
  refine ⟨⟨h1, ?_⟩, h3⟩
  cases hw : w.toList with
  | nil => rw [hw] at h2; cases h2
  | cons c cs => rw [hw] at h2; exact ⟨c, cs, rfl, by simpa using h2⟩

theorem quote_nameEnd (s : Input) : NameEnd ('\'' :: s) := by
  refine ⟨UidEnd.of (by decide) (by decide) (by decide), ?_⟩
  rw [scopeEnd]
  refine bind_step (opt_none (sig_err_head (by decide) (by decide))) ?_
  refine bind_step (many0_err (skip_err (b := []) Blank.nil (NoSp.cons (by decide))
    (cvOrRef_err (noWord_head (by decide)).2.2 (by simp)))) ?_
  exact bind_err (colon_tag (by simp))

theorem quoted_type {i : Input} (hi : IsName i) (s : Input) : TypeStops (i ++ '\'' :: s) := by
  have hid : IdGood (.idExpr (.path false .nil) (.named false i .none)) ([] ++ (([] : Input) ++ i)) :=
    idExpr_good (path_good (rooted := false) (l := .nil) (t := []) scopesNil_good (by simp [Ast.len])) (named_good (d := false) hi)
  have := typeLike_ender (b := []) hid rfl rfl Blank.nil (c := '\'') (by decide) (quote_nameEnd s)
  exact Or.inr ⟨[], '\'', s, _, this, Blank.nil, by decide⟩

theorem digit_facts {c : Char} (h : c.isDigit = true ∨ c = '-' ∨ c = '\'') : isIdStart c = false ∧
    c ∉ ['(', '{', '~', ':'] ∧ P.isSpace c = false ∧ c ∉ [',', '=', '<', '>', ')', ']', '.'] ∧ c ≠ 'a' := by
  rcases h with h | rfl | rfl
  · refine ⟨?_, ?_, ?_, ?_, ?_⟩
    · cases hx : isIdStart c with
      | false => rfl
      | true => rw [start_noDigit hx] at h; cases h
    · intro hm
      simp only [List.mem_cons, List.not_mem_nil, or_false] at hm
      rcases hm with rfl | rfl | rfl | rfl <;> revert h <;> decide
    · cases hx : P.isSpace c with
      | false => rfl
      | true =>
        simp only [P.isSpace, Bool.or_eq_true, beq_iff_eq] at hx
        rcases hx with ((rfl | rfl) | rfl) | rfl <;> revert h <;> decide
    · intro hm
      simp only [List.mem_cons, List.not_mem_nil, or_false] at hm
      rcases hm with rfl | rfl | rfl | rfl | rfl | rfl | rfl <;> revert h <;> decide
    · rintro rfl; revert h; decide
  · decide
  · decide

theorem hLit_good {l : Literal} {t : Input} {K : Char → Prop} (h : LitText K l t) : HeaderGood (.hLit l) t := by
  have hhd : ∃ c u, t = c :: u ∧ P.isSpace c = false ∧ c ∉ [',', '=', '<', '>', ')', ']', '.'] := by
    rcases litText_head h with ⟨c, u, rfl, hc⟩ | ⟨pre, hp, u, rfl⟩
    · obtain ⟨-, -, h1, h2, h3⟩ := digit_facts hc
      exact ⟨c, u, rfl, h1, h2⟩
    · simp only [List.mem_cons, List.not_mem_nil, or_false] at hp
      rcases hp with rfl | rfl | rfl | rfl
      · exact ⟨'u', _, rfl, by decide, by decide⟩
      · exact ⟨'u', _, rfl, by decide, by decide⟩
      · exact ⟨'U', _, rfl, by decide, by decide⟩
      · exact ⟨'L', _, rfl, by decide, by decide⟩
  refine ⟨(head_nodot hhd).1, fun _ => (head_nodot hhd).2, fun r hr => ?_, fun _ r hr => ?_, fun i e => (nomatch e), fun _ ac ag r hr => ?_, fun e => (nomatch e)⟩
  · rcases litText_head h with ⟨c, u, rfl, hc⟩ | ⟨pre, hp, u, rfl⟩
    · exact hard_head (digit_facts hc).1
    · rw [List.append_assoc, List.cons_append, word_append (prefix_isName hp).1.1 rfl]
      intro w hw
      refine (prefix_isName hp).2 w ?_
      rw [reserved]; exact List.mem_append_right _ hw
  · rcases litText_head h with ⟨c, u, rfl, hc⟩ | ⟨pre, hp, u, rfl⟩
    · obtain ⟨h0, h1, h2, -, -⟩ := digit_facts hc
      exact Or.inl (typeLike_bad (badHead_cons h0 h1 h2))
    · rw [List.append_assoc, List.cons_append]
      exact quoted_type (prefix_isName hp) _
  · rw [valueHeader]
    exact or_l (bind_step (literal_run h hr.noId) rfl)

/-! ## Casts and unary operators -/

theorem Fits.unary {o : Ast .op} {v : Ast .value} {ac ag : Bool} {rest : Input} (h : Fits (.hUnary o v) ac ag rest) :
    Fits v ac ag rest := ⟨h.comma, h.greater, h.arrow⟩

theorem hCast_good {a : Ast .ty} {b t b' c : Input} {v : Ast .value} {tv : Input} (hb : Blank b)
    (h : TyGood a t) (hop : a.tyOp = true → b' = []) (hb' : Blank b') (hc : Blank c) (hv : ValueGood v tv) :
    HeaderGood (.hUnary (.conversion a) v) ('(' :: b ++ t ++ b' ++ ')' :: c ++ tv) := by
  have et : ∀ r, '(' :: b ++ t ++ b' ++ ')' :: c ++ tv ++ r = '(' :: (b ++ (t ++ (b' ++ ')' :: (c ++ (tv ++ r))))) := by
    intro r; simp only [List.append_assoc, List.cons_append]
  have hid : ∀ r, idHead (b' ++ ')' :: r) = false := fun r => blank_idHead hb' fun _ => rfl
  have hanon : ∀ r, ∀ w ∈ anonWords, word (b ++ (t ++ (b' ++ ')' :: r))) ≠ w.toList := by
    intro r w hw
    cases b with
    | nil => exact (h.starts _ (hid r)).anon w hw
    | cons x b =>
      rw [word_nil (blank_idHead hb (by simp))]
      clear hop; revert w; decide +kernel
  refine ⟨⟨'(', _, rfl, by decide, by decide⟩, fun _ u e => ?_, fun r hr => hard_head (by decide), fun _ r hr => Or.inl ?_, fun i e => (nomatch e),
    fun e => (nomatch e), fun _ ac ag sp rest hsp hr hf hbin => ?_⟩
  · simp at e
  · rw [et]
    exact paren_type_err (hanon _)
  · rw [et, valueHeader]
    refine or_r (bind_err (literal_err (by simp) (by simp) (noDigit_cons (by decide)) (by simp))) ?_
    refine or_r (bind_err (not_new_head (by simp) (by simp))) ?_
    refine or_r (ofType_err (tag_err_head (c := 's') (cs := "izeof(".toList) (by decide +kernel) (by simp))) ?_
    refine or_r (ofType_err (tag_err_head (c := 'd') (cs := "eclval(".toList) (by decide +kernel) (by simp))) ?_
    refine or_r (bind_err (paren_id_err (hanon _))) (or_l ?_)
    rw [unaryOp]
    refine bind_step (r := tv ++ (sp ++ rest)) (a := .conversion a) ?_ ?_
    · rw [unaryPrefix]
      refine or_l (spaced_run (b := c) ?_ hc (hv.noSp _))
      refine or_l (or_l ?_)
      rw [castPrefix, gTy]
      refine bind_step (charSp_run hb (h.starts _ (hid _)).noSp) ?_
      refine bind_step (h.run b' (')' :: (c ++ (tv ++ (sp ++ rest)))) hb' (Stop.close (Or.inl rfl)) ?_) ?_
      · intro ho
        exact ⟨hop ho, OpEnd.of (by decide) (by decide) (Or.inl (by decide))⟩
      · exact bind_step (spChar_run (b := []) Blank.nil (by decide)) rfl
    · refine bind_step (space0_id (hv.noSp _)) ?_
      rw [gVal]
      exact bind_step (hv.run ac ag sp rest hsp hr hf.unary hbin) rfl

/-! ## Names -/

theorem prefix_of_append {t x w r : Input} (h : t ++ x = w ++ r) (hx : ∀ c ∈ w, x.head? ≠ some c) : ∃ r', t = w ++ r' := by
  rcases List.append_eq_append_iff.1 h with ⟨a, h1, h2⟩ | ⟨a, h1, h2⟩
  · cases a with
    | nil => exact ⟨[], by rw [h1]; simp⟩
    | cons c a =>
      exact absurd (by rw [h2]; rfl) (hx c (by rw [h1]; simp))
  · exact ⟨a, h1⟩

theorem word_of_append {t x : Input} (hx : idHead x = false) : word (t ++ x) = t.takeWhile isIdCont := by
  induction t with
  | nil => exact word_nil hx
  | cons c t ih =>
    simp only [word, List.cons_append, List.takeWhile_cons] at ih ⊢
    rw [ih]

theorem NoQuote.literal {s : Input} (h : NoQuote s) (r : Input) : s ≠ '\'' :: r ∧ s ≠ 'u' :: '\'' :: r ∧
    s ≠ 'U' :: '\'' :: r ∧ s ≠ 'L' :: '\'' :: r ∧ s ≠ 'u' :: '8' :: '\'' :: r := by
  refine ⟨?_, ?_, ?_, ?_, ?_⟩ <;> (rintro rfl; exact h r rfl)

theorem Starts.char {s : Input} (h : Starts s) : ∃ c u, s = c :: u ∧ P.isSpace c = false ∧ c.isDigit = false ∧
    c ∉ [',', '=', '<', '>', ')', ']', '.', '-', '+', '\'', '*', '&', '!'] := by
  obtain ⟨c, u, rfl, hc⟩ := h.head
  refine ⟨c, u, rfl, h.noSp c u rfl, ?_, ?_⟩
  · rcases hc with hc | hc
    · exact start_noDigit hc
    · simp only [List.mem_cons, List.not_mem_nil, or_false] at hc
      rcases hc with rfl | rfl | rfl | rfl <;> decide
  · intro hm
    simp only [List.mem_cons, List.not_mem_nil, or_false] at hm
    rcases hm with rfl | rfl | rfl | rfl | rfl | rfl | rfl | rfl | rfl | rfl | rfl | rfl | rfl <;> revert hc <;> decide

theorem IdGood.char {i : Ast .idExpr} {t : Input} (h : IdGood i t) : ∃ c u, t = c :: u ∧ P.isSpace c = false ∧
    c.isDigit = false ∧ c ∉ [',', '=', '<', '>', ')', ']', '.', '-', '+', '\'', '*', '&', '!'] := by
  have := (h.starts [] rfl).char
  rwa [List.append_nil] at this

theorem hId_good {i : Ast .idExpr} {t : Input} (h : IdGood i t) (hop : i.idOp = false) (hcv : i.idConv = false)
    (hv : ValueName t) :
    HeaderGood (.hId i) t := by
  obtain ⟨hv1, hv2, hv3, hv4⟩ := hv
  obtain ⟨c, u, hcu, hc1, hc2, hc3⟩ := h.char
  have hdot : ∀ u, t ≠ '.' :: u := by
    rintro u rfl
    simp only [List.cons.injEq] at hcu
    rw [← hcu.1] at hc3; exact hc3 (by simp)
  refine ⟨⟨c, u, hcu, hc1, ?_⟩, fun _ => hdot, fun r hr => (h.starts r hr).word, by simp [Ast.headerNotType],
    fun j e => ?_, fun _ ac ag r hr => ?_, fun e => (nomatch e)⟩
  · intro hm; apply hc3
    revert hm; simp only [List.mem_cons, List.not_mem_nil, or_false]; tauto
  · simp only [Ast.hId.injEq] at e; subst e; exact ⟨h, hop, hcv⟩
  have hne : ∀ d ∈ ['-', '+'], (t ++ r).head? ≠ some d := by
    intro d hd
    rw [hcu]
    simp only [List.cons_append, List.head?_cons, ne_eq, Option.some.injEq]
    rintro rfl; apply hc3
    revert hd; simp only [List.mem_cons, List.not_mem_nil, or_false]; tauto
  have hid := hr.noId
  have hend : ∀ c, isIdCont c = true → r.head? ≠ some c := by
    intro c h1 e
    cases r with
    | nil => cases e
    | cons d y =>
      simp only [List.head?_cons, Option.some.injEq] at e
      subst e
      rw [idHead, h1] at hid; cases hid
  have hcolon : t ≠ [':'] := by
    rintro rfl
    have h1 := h.run hcv [] ((VStop.nameEnd (sp := []) (s := []) ⟨by simp, NoEq.nil, by simp⟩ Blank.nil)) (by simp [hop])
    rw [List.append_nil] at h1
    rw [idExpression_colon (by simp)] at h1
    cases h1
  rw [valueHeader]
  refine or_r (bind_err (literal_err (hne _ (by simp)) (hne _ (by simp)) ?_ (NoQuote.literal (h.noQuote _ hid hr.quote)))) ?_
  · rw [hcu]; exact noDigit_cons hc2
  refine or_r (bind_err (newExpression_err (fun r' e => ?_) (fun r' e => ?_))) ?_
  · obtain ⟨r', h1⟩ := prefix_of_append e (fun c hc => hend c (by revert c; decide +kernel)); exact hv1 r' h1
  · have e2 : "::new".toList = [':', ':', 'n', 'e', 'w'] := by decide +kernel
    have hcut : ∃ r'', t = "::new".toList ++ r'' := by
      rw [e2] at e
      cases u with
      | nil =>
        rw [hcu] at e
        simp only [List.cons_append, List.cons.injEq] at e
        exact absurd (by rw [hcu, e.1]) hcolon
      | cons d u' =>
        rw [hcu] at e ⊢
        simp only [List.cons_append, List.cons.injEq] at e
        obtain ⟨rfl, rfl, e⟩ := e
        obtain ⟨r'', h1⟩ := prefix_of_append (w := ['n', 'e', 'w']) e (fun c hc => hend c (by revert c; decide))
        exact ⟨r'', by rw [h1, e2]; rfl⟩
    obtain ⟨r'', h1⟩ := hcut
    exact hv2 r'' h1
  refine or_r (ofType_err (tag_word_err (v := "sizeof") (c := '(') (cs := []) (by decide +kernel) (by decide +kernel)
    (by decide) (by rw [word_of_append hid]; exact hv3))) ?_
  refine or_r (ofType_err (tag_word_err (v := "declval") (c := '(') (cs := []) (by decide +kernel) (by decide +kernel)
    (by decide) (by rw [word_of_append hid]; exact hv4))) ?_
  exact or_l (bind_step (h.run hcv _ (hr.name rfl) (by rw [hop]; intro e; cases e)) rfl)

theorem unary_sym_facts {y : Symbol} (hy : y ∈ [Symbol.addPlus, .subNeg, .mulDeref, .andRef, .not]) :
    y.char ∈ ['+', '-', '*', '&', '!'] ∧ isIdCont y.char = false ∧ isIdStart y.char = false ∧
    (y.sign = false → y.char ∉ ['+', '-', '\'']) ∧
    (y = .addPlus || y = .subNeg || y = .mulDeref || y = .andRef || y = .bitNot || y = .not) = true := by
  simp only [List.mem_cons, List.not_mem_nil, or_false] at hy
  rcases hy with rfl | rfl | rfl | rfl | rfl <;> decide

theorem blank_digit {b : Input} {x : Char} (hb : Blank (x :: b)) : x.isDigit = false ∧ x ≠ '+' ∧ x ≠ '-' ∧ x ≠ '>' := by
  have hx := hb x (by simp)
  simp only [P.isSpace, Bool.or_eq_true, beq_iff_eq] at hx
  rcases hx with ((rfl | rfl) | rfl) | rfl <;> decide

/-- Headers that start with an operator. -/
theorem unary_of {c : Char} {x : Input} {o : Ast .op} {v : Ast .value} {b t : Input}
    (hc : c ∈ ['+', '-', '*', '&', '!']) (h : ValueGood v t) (hb : Blank b)
    (hx : ∃ x0, x = x0 ++ (b ++ t) ∧ ∀ r, literal (c :: (x0 ++ (b ++ (t ++ r)))) = .err ∧
      P.or (P.or (castPrefix grammar) (do let o ← incDec; pure (.arith o))) unarySymbol (c :: (x0 ++ (b ++ (t ++ r)))) =
        .ok (b ++ (t ++ r)) o) :
    HeaderGood (.hUnary o v) (c :: x) := by
  obtain ⟨x0, rfl, hx⟩ := hx
  have hfacts : isIdStart c = false ∧ P.isSpace c = false ∧ c ∉ [',', '=', '<', '>', ')', ']', '.'] ∧
      c ∉ ['(', '{', '~', ':'] := by
    simp only [List.mem_cons, List.not_mem_nil, or_false] at hc
    rcases hc with rfl | rfl | rfl | rfl | rfl <;> decide
  have hbad : ∀ s, BadHead (c :: s) := fun s => badHead_cons hfacts.1 hfacts.2.2.2 hfacts.2.1
  have hne : ∀ d s, d ∉ ['+', '-', '*', '&', '!'] → (c :: s).head? ≠ some d := by
    rintro d s hd ⟨⟩; exact hd hc
  have hhd := head_nodot (t := c :: (x0 ++ (b ++ t))) ⟨c, _, rfl, hfacts.2.1, hfacts.2.2.1⟩
  refine ⟨hhd.1, fun _ => hhd.2, fun r hr => hard_head hfacts.1,
    fun _ r hr => Or.inl (typeLike_bad (hbad _)), fun i e => (nomatch e), fun e => (nomatch e),
    fun _ ac ag sp rest hsp hr hf hbin => ?_⟩
  have et : c :: (x0 ++ (b ++ t)) ++ (sp ++ rest) = c :: (x0 ++ (b ++ (t ++ (sp ++ rest)))) := by
    simp only [List.append_assoc, List.cons_append]
  rw [et, valueHeader]
  refine or_r (bind_err (hx _).1) ?_
  refine or_r (bind_err (not_new_head (hne _ _ (by decide)) (hne _ _ (by decide)))) ?_
  refine or_r (ofType_err (tag_err_head (c := 's') (cs := "izeof(".toList) (by decide +kernel) (hne _ _ (by decide)))) ?_
  refine or_r (ofType_err (tag_err_head (c := 'd') (cs := "eclval(".toList) (by decide +kernel) (hne _ _ (by decide)))) ?_
  refine or_r (bind_err (idExpression_bad (hbad _))) (or_l ?_)
  rw [unaryOp]
  refine bind_step (r := t ++ (sp ++ rest)) (a := o) ?_ ?_
  · rw [unaryPrefix]
    exact or_l (spaced_run (b := b) (hx _).2 hb (h.noSp _))
  · refine bind_step (space0_id (h.noSp _)) ?_
    rw [gVal]
    exact bind_step (h.run ac ag sp rest hsp hr hf.unary hbin) rfl

theorem hUnary_good {y : Symbol} {b : Input} {v : Ast .value} {t : Input}
    (hy : y ∈ [Symbol.addPlus, .subNeg, .mulDeref, .andRef, .not]) (hb : Blank b) (h : ValueGood v t)
    (hs : y.sign = true → ∀ c u, t = c :: u → c.isDigit = false ∧ c ≠ '+' ∧ c ≠ '-') :
    HeaderGood (.hUnary (.arith (.basic y false false)) v) (y.char :: b ++ t) := by
  obtain ⟨h1, h2, h3, h4, h5⟩ := unary_sym_facts hy
  have hnext : y.sign = true → ∀ r d u', b ++ (t ++ r) = d :: u' → d.isDigit = false ∧ d ≠ '+' ∧ d ≠ '-' := by
    intro hsg r d u' e
    cases b with
    | nil =>
      obtain ⟨c, u, hcu, -⟩ := h.head
      have := hs hsg c u hcu
      rw [hcu] at e
      simp only [List.nil_append, List.cons_append, List.cons.injEq] at e
      rw [← e.1]; exact this
    | cons x b =>
      simp only [List.cons_append, List.cons.injEq] at e
      rw [← e.1]
      have := blank_digit hb
      exact ⟨this.1, this.2.1, this.2.2.1⟩
  refine unary_of h1 h hb ⟨[], rfl, fun r => ⟨?_, ?_⟩⟩
  · simp only [List.nil_append]
    by_cases hsg : y.sign = true
    · refine sign_literal_err ?_ fun d u' e => (hnext hsg r d u' e).1
      cases y <;> simp [Symbol.sign] at hsg <;> simp [Symbol.char]
    · have := h4 (by simpa using hsg)
      exact literal_head (by intro hm; apply this; revert hm; simp only [List.mem_cons, List.not_mem_nil, or_false]; tauto) h2
  · simp only [List.nil_append]
    refine or_r (or_err (bind_err (charSp_err ?_)) (bind_err (incDec_err (fun (u : Input) (e : _ = _) => ?_) (fun u e => ?_)))) ?_
    · rintro e
      simp only [List.head?_cons, Option.some.injEq] at e
      rw [e] at h1; exact absurd h1 (by decide)
    · rw [List.cons.injEq] at e
      have hsg : y.sign = true := by cases y <;> first | rfl | (exact absurd e.1 (by decide))
      exact (hnext hsg r _ _ e.2).2.1 rfl
    · rw [List.cons.injEq] at e
      have hsg : y.sign = true := by cases y <;> first | rfl | (exact absurd e.1 (by decide))
      exact (hnext hsg r _ _ e.2).2.2 rfl
    · rw [unarySymbol]
      exact bind_step (verify_run (symbol_char_run y _) h5) rfl

theorem hIncDec_good {y : Symbol} {b : Input} {v : Ast .value} {t : Input}
    (hy : y ∈ [Symbol.addPlus, .subNeg]) (hb : Blank b) (h : ValueGood v t) :
    HeaderGood (.hUnary (.arith (.basic y true false)) v) (y.char :: y.char :: b ++ t) := by
  have e1 : "++".toList = ['+', '+'] := by decide +kernel
  have e2 : "--".toList = ['-', '-'] := by decide +kernel
  simp only [List.mem_cons, List.not_mem_nil, or_false] at hy
  rcases hy with rfl | rfl
  · refine unary_of (c := '+') (b := b) (by decide) h hb ⟨['+'], rfl, fun r => ⟨?_, ?_⟩⟩
    · exact sign_literal_err (Or.inr rfl) (noDigit_cons (by decide))
    · refine or_l (or_r (bind_err (charSp_err (by simp))) ?_)
      refine bind_step (r := b ++ (t ++ r)) (a := .basic .addPlus true false) ?_ rfl
      have := tag_run "++" (b ++ (t ++ r))
      rw [e1] at this
      exact or_l (bind_step this rfl)
  · refine unary_of (c := '-') (b := b) (by decide) h hb ⟨['-'], rfl, fun r => ⟨?_, ?_⟩⟩
    · exact sign_literal_err (Or.inl rfl) (noDigit_cons (by decide))
    · refine or_l (or_r (bind_err (charSp_err (by simp))) ?_)
      refine bind_step (r := b ++ (t ++ r)) (a := .basic .subNeg true false) ?_ rfl
      have := tag_run "--" (b ++ (t ++ r))
      rw [e2] at this
      exact or_r (bind_err (tag_err_head (c := '+') (cs := ['+']) e1 (by simp))) (bind_step this rfl)

/-! ## Parentheses, `sizeof` and `declval` -/

theorem hParen_good {v : Ast .value} {b t b' : Input} (hb : Blank b) (h : ValueGood v t) (hb' : Blank b') :
    HeaderGood (.hParen v) ('(' :: b ++ t ++ b' ++ [')']) := by
  have et : ∀ r, '(' :: b ++ t ++ b' ++ [')'] ++ r = '(' :: (b ++ (t ++ (b' ++ ')' :: r))) := by
    intro r; simp only [List.append_assoc, List.cons_append, List.nil_append]
  have hanon : ∀ r, ∀ w ∈ anonWords, word (b ++ (t ++ (b' ++ ')' :: r))) ≠ w.toList := by
    intro r w hw
    cases b with
    | nil =>
      refine h.words _ (blank_idHead hb' fun _ => rfl) w ?_
      revert w; decide +kernel
    | cons x b =>
      rw [word_nil (blank_idHead hb (by simp))]
      revert w; decide +kernel
  have hs : ∀ r, Stop (')' :: r) := fun r => Stop.close (Or.inl rfl)
  refine ⟨⟨'(', _, rfl, by decide, by decide⟩, fun _ u e => ?_, fun r hr => hard_head (by decide), fun _ r hr => Or.inl ?_,
    fun i e => (nomatch e), fun _ ac ag r hr => ?_, fun e => (nomatch e)⟩
  · simp at e
  · rw [et]; exact paren_type_err (hanon _)
  rw [et, valueHeader]
  refine or_r (bind_err (literal_head (by decide) (by decide))) ?_
  refine or_r (bind_err (not_new_head (by simp) (by simp))) ?_
  refine or_r (ofType_err (tag_err_head (c := 's') (cs := "izeof(".toList) (by decide +kernel) (by simp))) ?_
  refine or_r (ofType_err (tag_err_head (c := 'd') (cs := "eclval(".toList) (by decide +kernel) (by simp))) ?_
  refine or_r (bind_err (paren_id_err (hanon _))) ?_
  have hcs : P.charSp '(' ('(' :: (b ++ (t ++ (b' ++ ')' :: r)))) = .ok (t ++ (b' ++ ')' :: r)) () := charSp_run hb (h.noSp _)
  refine or_r ?_ (or_l ?_)
  · rw [unaryOp]
    rcases hr.cast v rfl with hn | ⟨⟨a, ha⟩, b2, z, rfl, hb2, hz, hval⟩
    · refine bind_err ?_
      rw [unaryPrefix]
      refine or_err (spaced_err (or_err (or_err ?_ (bind_err (incDec_err (by simp) (by simp)))) rfl)) (bind_err ?_)
      · rw [castPrefix, gTy]
        refine bind_step hcs ?_
        rcases h.notType hn b' (')' :: r) hb' (hs r).value (fun _ => hs r) with he | ⟨b3, c, u, a, he, hb3, hc⟩
        · exact bind_err he
        · obtain ⟨f1, f2, f3⟩ := typeEnders_facts hc
          refine bind_step he (bind_err (spChar_err hb3 (NoSp.cons f1) ?_))
          rintro ⟨⟩; exact f3 (by simp)
      · exact or_err (bind_err (keyword_err (by decide +kernel) (by rw [word_nil rfl]; decide +kernel)))
          (bind_err (keyword_err (by decide +kernel) (by rw [word_nil rfl]; decide +kernel)))
    · obtain ⟨hty, hop⟩ := h.asTy a ha
      refine bind_step (r := z) (a := .conversion a) ?_ ?_
      · rw [unaryPrefix]
        refine or_l (spaced_run (b := b2) (or_l (or_l ?_)) hb2 hz)
        rw [castPrefix, gTy]
        refine bind_step hcs (bind_step (hty.run b' _ hb' (hs _) (by rw [hop]; intro e; cases e)) ?_)
        exact bind_step (spChar_run (b := []) Blank.nil (by decide)) rfl
      · refine bind_step (space0_id hz) ?_
        rw [gVal]
        exact bind_err (hval ac ag)
  · rw [parenValue, gVal]
    refine bind_step ?_ rfl
    refine bind_step hcs ?_
    refine bind_step (h.run true true b' (')' :: r) hb' (hs r).value ⟨fun _ => rfl, fun _ => rfl, fun _ => hs r⟩
      (binary_close (Or.inl rfl))) ?_
    exact bind_step (spChar_run hb' (by decide)) rfl

theorem ofType_good {f : Ast .ty → Ast .header} {w w' : String} {c : Char} {cs : Input} {a : Ast .ty} {t b : Input} (hw : w.toList = c :: cs)
    (hw' : w.toList = w'.toList ++ ['(']) (hid : ∀ c ∈ w'.toList, isIdCont c = true)
    (hres : ∀ x ∈ hardReserved, w'.toList ≠ x.toList) (hc : c = 's' ∨ c = 'd')
    (h : TyGood a t) (hop : a.tyOp = true → b = []) (hb : Blank b)
    (hopen : (f a).isOpen = false) (hnt : (f a).headerNotType = false) (hnm : ∀ i, f a ≠ .hId i)
    (hrun : ∀ ac ag s r, ofType grammar w f (w.toList ++ s) = .ok r (f a) → literal (w.toList ++ s) = .err →
      newExpression grammar (w.toList ++ s) = .err → valueHeader grammar ac ag (w.toList ++ s) = .ok r (f a)) :
    HeaderGood (f a) (w.toList ++ t ++ b ++ [')']) := by
  have et : ∀ r, w.toList ++ t ++ b ++ [')'] ++ r = w.toList ++ (t ++ (b ++ ')' :: r)) := by
    intro r; simp only [List.append_assoc, List.cons_append, List.nil_append]
  have hcf : P.isSpace c = false ∧ c ∉ [',', '=', '<', '>', ')', ']', '.'] ∧ c ∉ ['-', '+', '\'', 'u', 'U', 'L', 'n', ':'] ∧ c.isDigit = false := by
    rcases hc with rfl | rfl <;> decide
  have hne : ∀ d s, d ∈ ['-', '+', '\'', 'u', 'U', 'L', 'n', ':'] → (w.toList ++ s).head? ≠ some d := by
    intro d s hd e
    rw [hw] at e
    simp only [List.cons_append, List.head?_cons, Option.some.injEq] at e
    rw [e] at hcf; exact hcf.2.2.1 hd
  have hhd := head_nodot (t := w.toList ++ t ++ b ++ [')']) ⟨c, cs ++ t ++ b ++ [')'], by rw [hw]; simp, hcf.1, hcf.2.1⟩
  refine ⟨hhd.1, fun _ => hhd.2, fun r hr x hx => ?_, fun e => ?_,
    fun i e => absurd e (hnm i), fun _ ac ag r hr => ?_, fun e => ?_⟩
  · rw [et, hw', List.append_assoc, word_append hid rfl]
    exact hres x hx
  · rw [hnt] at e; cases e
  · rw [et]
    refine hrun ac ag _ _ ?_ ?_ (not_new_head (hne _ _ (by simp)) (hne _ _ (by simp)))
    · rw [ofType, gTy]
      refine bind_step (tag_run _ _) (bind_step (h.run b (')' :: r) hb (Stop.close (Or.inl rfl)) ?_) ?_)
      · intro ho
        exact ⟨hop ho, OpEnd.of (by decide) (by decide) (Or.inl (by decide))⟩
      · exact bind_step (char_run _ _) rfl
    · refine literal_err (hne _ _ (by simp)) (hne _ _ (by simp)) (by rw [hw]; exact noDigit_cons hcf.2.2.2) fun r => ?_
      refine ⟨?_, ?_, ?_, ?_, ?_⟩ <;> (intro e; refine hne _ _ ?_ (congrArg List.head? e); simp)
  · rw [hopen] at e; cases e

theorem hSizeOf_good {a : Ast .ty} {t b : Input} (h : TyGood a t) (hop : a.tyOp = true → b = []) (hb : Blank b) :
    HeaderGood (.hSizeOf a) ("sizeof(".toList ++ t ++ b ++ [')']) := by
  refine ofType_good (f := .hSizeOf) (w := "sizeof(") (w' := "sizeof") (c := 's') (cs := "izeof(".toList) (by decide +kernel)
    (by decide +kernel) (by decide +kernel) (by decide +kernel) (Or.inl rfl) h hop hb rfl rfl (by simp) ?_
  intro ac ag s r h1 h2 h3
  rw [valueHeader]
  exact or_r (bind_err h2) (or_r (bind_err h3) (or_l h1))

theorem hDeclVal_good {a : Ast .ty} {t b : Input} (h : TyGood a t) (hop : a.tyOp = true → b = []) (hb : Blank b) :
    HeaderGood (.hDeclVal a) ("declval(".toList ++ t ++ b ++ [')']) := by
  have e : "declval(".toList = 'd' :: "eclval(".toList := by decide +kernel
  refine ofType_good (f := .hDeclVal) (w := "declval(") (w' := "declval") (c := 'd') (cs := "eclval(".toList) e
    (by decide +kernel) (by decide +kernel) (by decide +kernel) (Or.inr rfl) h hop hb rfl rfl (by simp) ?_
  intro ac ag s r h1 h2 h3
  rw [valueHeader]
  refine or_r (bind_err h2) (or_r (bind_err h3) (or_r (ofType_err (tag_err_head (c := 's') (cs := "izeof(".toList) (by decide +kernel) ?_)) (or_l h1)))
  rw [e]; simp

/-! ## `decltype` -/

theorem hEllipsis_good : HeaderGood .hEllipsis "...".toList := by
  have e3 : "...".toList = ['.', '.', '.'] := by decide +kernel
  have hbad : ∀ s, BadHead ('.' :: s) := fun s => badHead_cons (by decide) (by decide) (by decide)
  refine ⟨⟨'.', ['.', '.'], e3, by decide, by decide⟩, fun e => (nomatch e), fun r hr => ?_, fun _ r hr => Or.inl ?_,
    fun i e => (nomatch e), fun _ ac ag r hr => ?_, fun e => (nomatch e)⟩
  · rw [e3]; exact hard_head (by decide)
  · rw [e3]; exact typeLike_bad (hbad _)
  · have ht := tag_run "..." r
    rw [e3] at ht
    rw [e3, valueHeader]
    refine or_r (bind_err (literal_head (by decide) (by decide))) ?_
    refine or_r (bind_err (not_new_head (by simp) (by simp))) ?_
    refine or_r (ofType_err (tag_err_head (c := 's') (cs := "izeof(".toList) (by decide +kernel) (by simp))) ?_
    refine or_r (ofType_err (tag_err_head (c := 'd') (cs := "eclval(".toList) (by decide +kernel) (by simp))) ?_
    refine or_r (bind_err (idExpression_bad (hbad _))) ?_
    refine or_r ?_ (or_r (bind_err ?_) (bind_step ht rfl))
    · rw [unaryOp]
      exact bind_err (unaryPrefix_none (by decide) (Or.inl (by decide)) (by decide))
    · rw [parenValue]; exact bind_err (charSp_err (by simp))

theorem decltype_good {v : Ast .value} {b t b' : Input} (hb : Blank b) (h : ValueGood v t)
    (hv : v.outer isComma = false) (hb' : Blank b') :
    UidGood (.decltype v) ("decltype(".toList ++ b ++ t ++ b' ++ [')']) := by
  have e : "decltype(".toList = 'd' :: "ecltype(".toList := by decide +kernel
  have e2 : "decltype(".toList = "decltype".toList ++ ['('] := by decide +kernel
  have et : ∀ r, "decltype(".toList ++ b ++ t ++ b' ++ [')'] ++ r = "decltype(".toList ++ (b ++ (t ++ (b' ++ (')' :: r)))) := by
    intro r; simp only [List.append_assoc, List.cons_append, List.nil_append]
  refine ⟨fun r hr => ?_, fun r hr hq => ?_, ?_, fun _ r hr _ => ?_, fun e => (nomatch e)⟩
  · rw [et]
    refine ⟨?_, ?_⟩
    · rw [e2, List.append_assoc, word_append (by decide +kernel) rfl]
      decide +kernel
    · rw [e]; exact ⟨'d', _, rfl, Or.inl (by decide)⟩
  · rw [et, e2, List.append_assoc]
    exact noQuote_word (by decide +kernel) rfl (by simp)
  · rw [e]; exact ⟨'d', _, rfl, by decide, by simp [Ast.plain]⟩
  · rw [et]
    have hd : unqualifiedId grammar ("decltype(".toList ++ (b ++ (t ++ (b' ++ (')' :: r))))) =
        P.or (decltypeId grammar) (named grammar false) ("decltype(".toList ++ (b ++ (t ++ (b' ++ (')' :: r))))) := by
      rw [e]; rfl
    rw [hd]
    refine or_l ?_
    rw [decltypeId, gVal]
    refine bind_step (tag_run _ _) ?_
    refine bind_step (space0_run hb (h.noSp _)) ?_
    have hs : Stop (')' :: r) := Stop.close (Or.inl rfl)
    refine bind_step (h.run false true b' (')' :: r) hb' hs.value (.stop hv hs) (binary_close (Or.inl rfl))) ?_
    exact bind_step (spChar_run hb' (by decide)) rfl

end Verif.Cpp
