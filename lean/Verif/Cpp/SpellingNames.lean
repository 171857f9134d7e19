/-
C63: texts on which the recursive parsers fail, and what may follow a name.
-/
import Verif.Cpp.SpellingRun

set_option autoImplicit false
set_option linter.unusedVariables false
set_option linter.unusedSimpArgs false

namespace Verif.Cpp

/-! ## Texts that start no entity -/

/-- The text does not start with a character of names. -/
def BadHead (s : Input) : Prop :=
  ∀ c r, s = c :: r → isIdStart c = false ∧ c ∉ ['(', '{', '~', ':'] ∧ P.isSpace c = false

theorem BadHead.head_ne {s : Input} (h : BadHead s) {c : Char}
    (hc : isIdStart c = true ∨ c ∈ ['(', '{', '~', ':']) : s.head? ≠ some c := by
  cases s with
  | nil => simp
  | cons d r =>
    intro e
    simp only [List.head?_cons, Option.some.injEq] at e
    subst e
    obtain ⟨h1, h2, -⟩ := h d r rfl
    rcases hc with hc | hc
    · rw [h1] at hc; cases hc
    · exact h2 hc

theorem BadHead.noSp {s : Input} (h : BadHead s) : NoSp s := fun c r e => (h c r e).2.2

theorem keywords_bad {α : Type} {table : List (String × α)}
    (ht : ∀ e ∈ table, ∃ c cs, e.1.toList = c :: cs ∧ isIdStart c = true) {s : Input}
    (h : ∀ c r, s = c :: r → isIdStart c = false) : keywords table s = .err := by
  cases s with
  | nil =>
    clear h
    induction table with
    | nil => rfl
    | cons e es ih =>
      obtain ⟨c, cs, h1, -⟩ := ht e (by simp)
      have h3 : keyword e.1 [] = .err := bind_err (tag_err_head h1 (by simp))
      simp only [keywords, h3]
      exact ih fun e he => ht e (by simp [he])
  | cons d r =>
    apply keywords_cons_ne
    intro e he
    obtain ⟨c, cs, h1, h2⟩ := ht e he
    refine ⟨c, cs, h1, ?_⟩
    rintro rfl
    rw [h c r rfl] at h2; cases h2

theorem table_start {α : Type} {table : List (String × α)}
    (h : table.all (fun e => match e.1.toList with | c :: _ => isIdStart c | [] => false) = true) :
    ∀ e ∈ table, ∃ c cs, e.1.toList = c :: cs ∧ isIdStart c = true := by
  intro e he
  have := List.all_eq_true.1 h e he
  cases hx : e.1.toList with
  | nil => rw [hx] at this; cases this
  | cons c cs => rw [hx] at this; exact ⟨c, cs, rfl, this⟩

theorem cvTable_start : ∀ e ∈ cvTable, ∃ c cs, e.1.toList = c :: cs ∧ isIdStart c = true :=
  table_start (by decide +kernel)
theorem legacyTable_start : ∀ e ∈ legacyTable, ∃ c cs, e.1.toList = c :: cs ∧ isIdStart c = true :=
  table_start (by decide +kernel)
theorem elaboratedTable_start : ∀ e ∈ elaboratedTable, ∃ c cs, e.1.toList = c :: cs ∧ isIdStart c = true :=
  table_start (by decide +kernel)
theorem restrictTable_start : ∀ e ∈ restrictTable, ∃ c cs, e.1.toList = c :: cs ∧ isIdStart c = true :=
  table_start (by decide +kernel)

theorem unqualifiedId_bad {s : Input} (h : BadHead s) : unqualifiedId grammar s = .err := by
  have h0 := h.head_ne (c := '{') (Or.inr (by decide))
  have h1 := h.head_ne (c := '(') (Or.inr (by decide))
  have h2 := h.head_ne (c := '~') (Or.inr (by decide))
  have h3 := h.head_ne (c := 'd') (Or.inl (by decide))
  have h4 := h.head_ne (c := 'o') (Or.inl (by decide))
  rw [unqualifiedId, P.byHead]
  simp only [h0, h1, h2, h3, h4, or_self, if_false]
  exact bind_err (identifier_err fun c r e => (h c r e).1)

theorem proto_err {s : Input} (h1 : unqualifiedId grammar s = .err) :
    protoLoop (scopeOrUid grammar) s = .ok s ([], none) := by
  rw [protoLoop]
  have : scopeOrUid grammar s = .err := bind_err h1
  rw [this]

theorem protoId_err {s : Input} (h1 : unqualifiedId grammar s = .err) (h2 : s.head? ≠ some ':') :
    protoIdExpression grammar s = .ok s (.path false .nil, none) := by
  rw [protoIdExpression]
  refine bind_step (opt_none (tag_err_head (c := ':') (cs := [':']) (by decide +kernel) h2)) ?_
  refine bind_step (p := protoLoop (scopeOrUid grammar)) (proto_err h1) ?_
  rfl

theorem idExpression_err {s : Input} (h1 : unqualifiedId grammar s = .err) (h2 : s.head? ≠ some ':') :
    idExpression grammar s = .err := by
  rw [idExpression]
  exact bind_step (protoId_err h1 h2) rfl

theorem idExpression_bad {s : Input} (h : BadHead s) : idExpression grammar s = .err :=
  idExpression_err (unqualifiedId_bad h) (h.head_ne (Or.inr (by decide)))

theorem memberPointer_bad {s : Input} (h : BadHead s) (h' : s.head? ≠ some '*') :
    memberPointer grammar s = .err := by
  rw [memberPointer]
  refine bind_step (r := s) (a := .path false .nil) ?_ (bind_err (char_err h'))
  rw [nestedNameSpecifier, protoId_err (unqualifiedId_bad h) (h.head_ne (Or.inr (by decide)))]

theorem legacy_err {s : Input} (h : keywords legacyTable s = .err) : parseLegacyName s = .err := by
  rw [parseLegacyName]
  refine bind_err ?_
  rw [P.many1]
  exact bind_err (spaced_err h)

/-- A type fails when the name fails. -/
theorem typeLike_err {s : Input} (hn : NoSp s) (ha : P.tag "__attribute__(" s = .err)
    (hc : keywords cvTable s = .err) (hl : keywords legacyTable s = .err)
    (he : keywords elaboratedTable s = .err) (ht : P.tag "auto:" s = .err)
    (hi : idExpression grammar s = .err) : typeLike s = .err := by
  rw [typeLike_eq, stepTypeLike]
  refine bind_step (r := s) (a := .nil) ?_ ?_
  · refine spaced_run (b := []) ?_ Blank.nil hn
    rw [attributes]
    exact bind_step (opt_none (bind_err ha)) rfl
  refine bind_step (spaced_run (b := []) (cv_none_run hc) Blank.nil hn) ?_
  refine bind_err (spaced_err ?_)
  rw [simpleType]
  exact or_err (or_err (bind_err (legacy_err hl)) (bind_err ht))
    (bind_step (opt_none (bind_err he)) (bind_err hi))

theorem auto_err {s : Input} (h : s.head? ≠ some 'a') : P.tag "auto:" s = .err :=
  tag_err_head (c := 'a') (cs := "uto:".toList) (by decide +kernel) h

theorem gTy : grammar.typeLike = typeLike := rfl
theorem gVal : grammar.valueLike = valueLike := rfl
theorem gDecl : grammar.declarator = declarator := rfl

theorem typeLike_bad {s : Input} (h : BadHead s) : typeLike s = .err := by
  have h0 : ∀ c r, s = c :: r → isIdStart c = false := fun c r e => (h c r e).1
  refine typeLike_err h.noSp ?_ (keywords_bad cvTable_start h0) (keywords_bad legacyTable_start h0)
    (keywords_bad elaboratedTable_start h0) (auto_err (h.head_ne (Or.inl (by decide)))) (idExpression_bad h)
  exact tag_err_head (c := '_') (cs := "_attribute__(".toList) (by decide +kernel)
    (h.head_ne (Or.inl (by decide)))

/-- Words after an opening parenthesis that make it an anonymous entity. -/
def anonWords : List String := ["lambda", "anonymous", "unnamed"]

/-- An opening parenthesis that does not start an anonymous entity. -/
theorem anonymous_err {s : Input} (h : ∀ w ∈ anonWords, word s ≠ w.toList) :
    anonymous grammar ('(' :: s) = .err := by
  rw [anonymous, P.byHead]
  simp only [List.head?_cons, if_true]
  refine or_err ?_ ?_
  · rw [clangLambda]
    refine bind_err (tag_err ?_)
    intro r e
    have : "(lambda at ".toList = '(' :: ("lambda".toList ++ " at ".toList) := by decide +kernel
    rw [this] at e
    simp only [List.cons_append, List.cons.injEq, true_and] at e
    apply h "lambda" (by simp [anonWords])
    rw [e, List.append_assoc]
    exact word_append (by decide +kernel) rfl
  · rw [clangAnonymous]
    refine bind_step (char_run _ _) ?_
    have key : ∀ w : String, w ∈ anonWords → (∀ c ∈ w.toList, isIdCont c = true) → ∀ r,
        P.tag w s = .ok r () → ∃ c t, r = c :: t ∧ isIdCont c = true := by
      intro w hw hi r hr
      have hs := tag_ok hr
      by_contra hcon
      apply h w hw
      rw [hs]
      refine word_append hi ?_
      cases r with
      | nil => rfl
      | cons c t =>
        cases hc : isIdCont c with
        | false => exact hc
        | true => exact absurd ⟨c, t, rfl, hc⟩ hcon
    have hrest : ∀ r c t, r = c :: t → isIdCont c = true →
        (do let i ← P.opt (do P.char ' '; identifier)
            let l ← P.opt (do P.tag " at "; sourceLocation)
            P.char ')'
            pure (Ast.clangOther i l) : P (Ast .anon)) r = .err := by
      rintro r c t rfl hc
      have hne : ∀ d, isIdCont d = false → (c :: t).head? ≠ some d := by
        intro d hd e
        simp only [List.head?_cons, Option.some.injEq] at e
        rw [e, hd] at hc; cases hc
      refine bind_step (opt_none (bind_err (char_err (hne ' ' (by decide))))) ?_
      refine bind_step (opt_none (bind_err (tag_err_head (c := ' ') (cs := "at ".toList) (by decide +kernel)
        (hne ' ' (by decide))))) ?_
      exact bind_err (char_err (hne ')' (by decide)))
    rcases tagL_cases "anonymous".toList s with ⟨r, hr⟩ | hr
    · have hr' : P.tag "anonymous" s = .ok r () := hr
      obtain ⟨c, t, h1, h2⟩ := key "anonymous" (by decide) (by decide +kernel) r hr'
      exact bind_step (or_l hr') (hrest r c t h1 h2)
    · have hr' : P.tag "anonymous" s = .err := hr
      rcases tagL_cases "unnamed".toList s with ⟨r, hu⟩ | hu
      · have hu' : P.tag "unnamed" s = .ok r () := hu
        obtain ⟨c, t, h1, h2⟩ := key "unnamed" (by decide) (by decide +kernel) r hu'
        exact bind_step (or_r hr' hu') (hrest r c t h1 h2)
      · exact bind_err (or_err hr' hu)

theorem paren_uid_err {s : Input} (h : ∀ w ∈ anonWords, word s ≠ w.toList) :
    unqualifiedId grammar ('(' :: s) = .err := by
  rw [unqualifiedId, P.byHead]
  simp only [List.head?_cons, or_true, if_true]
  exact bind_err (anonymous_err h)

theorem paren_id_err {s : Input} (h : ∀ w ∈ anonWords, word s ≠ w.toList) :
    idExpression grammar ('(' :: s) = .err :=
  idExpression_err (paren_uid_err h) (by simp)

theorem paren_type_err {s : Input} (h : ∀ w ∈ anonWords, word s ≠ w.toList) :
    typeLike ('(' :: s) = .err := by
  have h0 : ∀ c r, '(' :: s = c :: r → isIdStart c = false := by
    intro c r e; cases e; decide
  refine typeLike_err (NoSp.cons (by decide)) ?_ (keywords_bad cvTable_start h0)
    (keywords_bad legacyTable_start h0) (keywords_bad elaboratedTable_start h0) (auto_err (by simp)) (paren_id_err h)
  exact tag_err_head (c := '_') (cs := "_attribute__(".toList) (by decide +kernel) (by simp)

/-! ## Texts that start no value -/

theorem newExpression_err {s : Input} (h1 : ∀ r, s ≠ "new".toList ++ r)
    (h2 : ∀ r, s ≠ "::new".toList ++ r) : newExpression grammar s = .err := by
  rw [newExpression]
  rcases tagL_cases "::".toList s with ⟨r, hr⟩ | hr
  · refine bind_step (opt_some (a := ()) hr) (bind_err (tag_err ?_))
    intro u e
    apply h2 u
    have := tagL_ok hr
    rw [this, e, ← List.append_assoc]
    congr 1
  · exact bind_step (opt_none hr) (bind_err (tag_err h1))

theorem not_new_head {s : Input} (h1 : s.head? ≠ some 'n') (h2 : s.head? ≠ some ':') :
    newExpression grammar s = .err := by
  apply newExpression_err
  · rintro r rfl; exact h1 rfl
  · rintro r rfl; exact h2 rfl

theorem ofType_err {w : String} {f : Ast .ty → Ast .header} {s : Input} (h : P.tag w s = .err) :
    ofType grammar w f s = .err := bind_err h

theorem incDec_err {s : Input} (h1 : ∀ r, s ≠ '+' :: '+' :: r) (h2 : ∀ r, s ≠ '-' :: '-' :: r) :
    incDec s = .err := by
  rw [incDec]
  exact or_err (bind_err (tag_err h1)) (bind_err (tag_err h2))

/-- Characters that start no value. -/
def noValue : List Char := [')', '>', ',', ']', '=', '<', '#', '/', '%', '^', '|', '?', '[']

theorem noValue_bad {s : Input} (h : ∀ c r, s = c :: r → c ∈ noValue) : BadHead s := by
  intro c r e
  have := h c r e
  simp only [noValue, List.mem_cons, List.not_mem_nil, or_false] at this
  rcases this with rfl | rfl | rfl | rfl | rfl | rfl | rfl | rfl | rfl | rfl | rfl | rfl | rfl <;> decide

theorem noValue_ne {s : Input} (h : ∀ c r, s = c :: r → c ∈ noValue) {d : Char} (hd : d ∉ noValue) :
    s.head? ≠ some d := by
  cases s with
  | nil => simp
  | cons c r =>
    intro e
    simp only [List.head?_cons, Option.some.injEq] at e
    subst e
    exact hd (h c r rfl)

theorem word_bad {s : Input} (h : ∀ c r, s = c :: r → isIdCont c = false) : word s = [] :=
  word_nil (idHead_of_noword h)

theorem unaryPrefix_noValue {s : Input} (h : ∀ c r, s = c :: r → c ∈ noValue) :
    unaryPrefix grammar s = .err := by
  have hb := noValue_bad h
  have hw : word s = [] := by
    apply word_bad
    intro c r e
    have := h c r e
    simp only [noValue, List.mem_cons, List.not_mem_nil, or_false] at this
    rcases this with rfl | rfl | rfl | rfl | rfl | rfl | rfl | rfl | rfl | rfl | rfl | rfl | rfl <;> decide
  rw [unaryPrefix]
  refine or_err (spaced_err (or_err (or_err ?_ ?_) ?_)) (bind_err (or_err ?_ ?_))
  · exact bind_err (charSp_err (noValue_ne h (by decide)))
  · refine bind_err (incDec_err ?_ ?_)
    · rintro r rfl; exact noValue_ne h (d := '+') (by decide) rfl
    · rintro r rfl; exact noValue_ne h (d := '-') (by decide) rfl
  · rw [unarySymbol]
    refine bind_err ?_
    cases s with
    | nil => rfl
    | cons c r =>
      have := h c r rfl
      simp only [noValue, List.mem_cons, List.not_mem_nil, or_false] at this
      rcases this with rfl | rfl | rfl | rfl | rfl | rfl | rfl | rfl | rfl | rfl | rfl | rfl | rfl <;> rfl
  · exact bind_err (keyword_err (by decide +kernel) (by rw [hw]; decide +kernel))
  · exact bind_err (keyword_err (by decide +kernel) (by rw [hw]; decide +kernel))

theorem valueLike_noValue {s : Input} (ac ag : Bool) (h : ∀ c r, s = c :: r → c ∈ noValue) :
    valueLike ac ag s = .err := by
  have hb := noValue_bad h
  rw [valueLike_eq, stepValueLike]
  refine bind_err ?_
  rw [valueHeader]
  refine or_err (bind_err (literal_err (noValue_ne h (by decide)) (noValue_ne h (by decide)) ?_ ?_)) ?_
  · intro c r e
    have := h c r e
    simp only [noValue, List.mem_cons, List.not_mem_nil, or_false] at this
    rcases this with rfl | rfl | rfl | rfl | rfl | rfl | rfl | rfl | rfl | rfl | rfl | rfl | rfl <;> decide
  · intro r
    refine ⟨?_, ?_, ?_, ?_, ?_⟩ <;> (rintro rfl; exact absurd (h _ _ rfl) (by decide))
  refine or_err (bind_err (not_new_head (noValue_ne h (by decide)) (noValue_ne h (by decide)))) ?_
  refine or_err (ofType_err (tag_err_head (c := 's') (cs := "izeof(".toList) (by decide +kernel)
    (noValue_ne h (by decide)))) ?_
  refine or_err (ofType_err (tag_err_head (c := 'd') (cs := "eclval(".toList) (by decide +kernel)
    (noValue_ne h (by decide)))) ?_
  refine or_err (bind_err (idExpression_bad hb)) ?_
  refine or_err (bind_err (unaryPrefix_noValue h)) ?_
  refine or_err (bind_err (bind_err (charSp_err (noValue_ne h (by decide))))) ?_
  exact bind_err (tag_err_head (c := '.') (cs := "..".toList) (by decide +kernel) (noValue_ne h (by decide)))

theorem templateParameter_noValue {s : Input} (h : ∀ c r, s = c :: r → c ∈ noValue) :
    templateParameter grammar s = .err := by
  rw [templateParameter, gTy, gVal]
  exact or_err (bind_err (typeLike_bad (noValue_bad h))) (bind_err (valueLike_noValue false false h))

theorem templateParameters_err {s : Input} (h : s.head? ≠ some '<') : templateParameters grammar s = .err :=
  bind_err (charSp_err h)

/-- Template parameters that start with something else than a type or a value. -/
theorem templateParameters_noValue {b s : Input} (hb : Blank b) (h : ∀ c r, s = c :: r → c ∈ noValue)
    (h1 : s.head? ≠ some '>') (h2 : ∀ r, s ≠ ", void>".toList ++ r) :
    templateParameters grammar ('<' :: (b ++ s)) = .err := by
  rw [templateParameters]
  refine bind_step (charSp_run hb (noValue_bad h).noSp) ?_
  refine or_err (or_err (bind_err ?_) (bind_err (char_err h1))) (bind_err (tag_err h2))
  exact bind_err (templateParameter_noValue h)

/-! ## What may follow a name -/

/-- After closing angle brackets there is no equal sign. -/
def NoEq (s : Input) : Prop := ∀ r, s.dropWhile (fun c => c == '>') ≠ '=' :: r

theorem NoEq.gt {s : Input} : NoEq ('>' :: s) ↔ NoEq s := by
  simp [NoEq]

theorem NoEq.other {c : Char} {s : Input} (h : c ≠ '>') (h' : c ≠ '=') : NoEq (c :: s) := by
  intro r
  rw [List.dropWhile_cons, if_neg (by simpa using h)]
  intro e
  simp only [List.cons.injEq] at e
  exact h' e.1

theorem NoEq.nil : NoEq [] := by intro r; simp

theorem NoEq.blank {b s : Input} (hb : Blank b) (h : NoEq s) : NoEq (b ++ s) := by
  cases b with
  | nil => exact h
  | cons c b =>
    have := hb c (by simp)
    refine NoEq.other ?_ ?_ <;> (rintro rfl; revert this; decide)

/-- What may follow an unqualified name. -/
structure UidEnd (s : Input) : Prop where
  noId : idHead s = false
  noTemplate : (do P.space0; let _ ← parseCv; templateParameters grammar : P (Ast .tparams)) s = .err
  noEq : NoEq s

/-- What may follow a qualified name. -/
structure NameEnd (s : Input) : Prop extends UidEnd s where
  noScope : scopeEnd grammar s = .err

/-- What may follow the name of an operator. -/
structure OpEnd (s : Input) : Prop where
  noSym : NoSym s
  noSp : NoSp s
  noIndex : ∀ r, s ≠ "[]".toList ++ r

/-- Ends of types and values. -/
def stops : List Char := [',', '>', ')', ']', '#']

/-- What may follow a type or a value. -/
structure Stop (s : Input) : Prop where
  head : ∀ c r, s = c :: r → c ∈ stops
  noEq : NoEq s

theorem Stop.noValue {s : Input} (h : Stop s) : ∀ c r, s = c :: r → c ∈ noValue := by
  intro c r e
  have := h.head c r e
  simp only [stops, List.mem_cons, List.not_mem_nil, or_false] at this
  rcases this with rfl | rfl | rfl | rfl | rfl <;> decide

theorem Stop.bad {s : Input} (h : Stop s) : BadHead s := noValue_bad h.noValue

theorem Stop.noSp {s : Input} (h : Stop s) : NoSp s := h.bad.noSp

theorem Stop.ne {s : Input} (h : Stop s) {d : Char} (hd : d ∉ stops) : s.head? ≠ some d := by
  cases s with
  | nil => simp
  | cons c r =>
    intro e
    simp only [List.head?_cons, Option.some.injEq] at e
    subst e
    exact hd (h.head c r rfl)

theorem Stop.noId {s : Input} (h : Stop s) : idHead s = false := by
  apply idHead_of_noword
  intro c r e
  have := h.head c r e
  simp only [stops, List.mem_cons, List.not_mem_nil, or_false] at this
  rcases this with rfl | rfl | rfl | rfl | rfl <;> decide

/-- What may follow a function signature. -/
def SigStop (s : Input) : Prop := ∀ c r, s = c :: r → c ∈ [',', '>', ')', ']', ':', '#']

theorem SigStop.ne {s : Input} (h : SigStop s) {d : Char} (hd : d ∉ [',', '>', ')', ']', ':', '#']) :
    s.head? ≠ some d := by
  cases s with
  | nil => simp
  | cons c r =>
    intro e
    simp only [List.head?_cons, Option.some.injEq] at e
    subst e
    exact hd (h c r rfl)

theorem SigStop.noId {s : Input} (h : SigStop s) : idHead s = false := by
  apply idHead_of_noword
  intro c r e
  have := h c r e
  simp only [List.mem_cons, List.not_mem_nil, or_false] at this
  rcases this with rfl | rfl | rfl | rfl | rfl | rfl <;> decide

theorem SigStop.noSp {s : Input} (h : SigStop s) : NoSp s := by
  intro c r e
  have := h c r e
  simp only [List.mem_cons, List.not_mem_nil, or_false] at this
  rcases this with rfl | rfl | rfl | rfl | rfl | rfl <;> decide

theorem SigStop.of {s : Input} (h : Stop s) : SigStop s := by
  intro c r e
  have := h.head c r e
  simp only [stops, List.mem_cons, List.not_mem_nil, or_false] at this ⊢
  rcases this with rfl | rfl | rfl | rfl | rfl <;> decide

theorem keywords_noId {α : Type} {table : List (String × α)}
    (ht : ∀ e ∈ table, ∃ c cs, e.1.toList = c :: cs ∧ isIdStart c = true) {s : Input}
    (h : idHead s = false) : keywords table s = .err :=
  keywords_bad ht (idStart_of_idHead h)

/-! ## What an entity starts with -/

/-- Starts of qualified names. -/
structure Starts (s : Input) : Prop where
  word : ∀ w ∈ hardReserved, word s ≠ w.toList
  head : ∃ c r, s = c :: r ∧ (isIdStart c = true ∨ c ∈ ['(', '{', '~', ':'])

/-- Words that start no type. -/
def noType : List String := ["lambda", "anonymous", "unnamed", "new", "delete", "co_await"]

/-- Starts of types. -/
structure AStarts (s : Input) : Prop where
  word : ∀ w ∈ noType, word s ≠ w.toList
  head : ∃ c r, s = c :: r ∧ (isIdStart c = true ∨ c ∈ ['(', '{', '~', ':'])

/-- Starts of types without attributes. -/
structure TStarts (s : Input) : Prop extends AStarts s where
  noAttr : Cpp.word s ≠ "__attribute__".toList

theorem Starts.t {s : Input} (h : Starts s) : TStarts s := by
  refine ⟨⟨fun w hw => h.word w ?_, h.head⟩, h.word _ (by decide +kernel)⟩
  revert w
  decide +kernel

theorem AStarts.noSp {s : Input} (h : AStarts s) : NoSp s := by
  obtain ⟨c, r, rfl, hc | hc⟩ := h.head
  · exact NoSp.ident (idStart_cont hc)
  · apply NoSp.cons
    simp only [List.mem_cons, List.not_mem_nil, or_false] at hc
    rcases hc with rfl | rfl | rfl | rfl <;> decide

theorem TStarts.noSp {s : Input} (h : TStarts s) : NoSp s := h.toAStarts.noSp

theorem Starts.noSp {s : Input} (h : Starts s) : NoSp s := h.t.noSp

theorem AStarts.anon {s : Input} (h : AStarts s) : ∀ w ∈ anonWords, Cpp.word s ≠ w.toList := by
  intro w hw
  apply h.word
  revert w
  decide +kernel

theorem AStarts.ne {s : Input} (h : AStarts s) {d : Char} (h1 : isIdStart d = false)
    (h2 : d ∉ ['(', '{', '~', ':']) : s.head? ≠ some d := by
  obtain ⟨c, r, rfl, hc⟩ := h.head
  intro e
  simp only [List.head?_cons, Option.some.injEq] at e
  subst e
  rcases hc with hc | hc
  · rw [h1] at hc; cases hc
  · exact h2 hc

theorem Starts.cv {s : Input} (h : Starts s) : keywords cvTable s = .err := by
  apply keywords_err cvTable_good
  intro e he
  apply h.word
  revert e; decide +kernel

theorem Starts.legacy {s : Input} (h : Starts s) : keywords legacyTable s = .err := by
  apply keywords_err legacyTable_good
  intro e he
  apply h.word
  revert e; decide +kernel

theorem Starts.elaborated {s : Input} (h : Starts s) : keywords elaboratedTable s = .err := by
  apply keywords_err elaboratedTable_good
  intro e he
  apply h.word
  revert e; decide +kernel

theorem Starts.restrict {s : Input} (h : Starts s) : keywords restrictTable s = .err := by
  apply keywords_err restrictTable_good
  intro e he
  apply h.word
  revert e; decide +kernel

theorem TStarts.attribute {s : Input} (h : TStarts s) : P.tag "__attribute__(" s = .err :=
  tag_word_err (v := "__attribute__") (c := '(') (cs := []) (by decide +kernel) (by decide +kernel) (by decide)
    h.noAttr

theorem Starts.vector {s : Input} (h : Starts s) : P.tag "__vector(" s = .err :=
  tag_word_err (v := "__vector") (c := '(') (cs := []) (by decide +kernel) (by decide +kernel) (by decide)
    (h.word _ (by decide +kernel))

theorem Starts.ident {i r : Input} (hi : IsIdent i) (hn : ∀ w ∈ hardReserved, i ≠ w.toList)
    (hr : idHead r = false) : Starts (i ++ r) := by
  obtain ⟨h1, c, cs, rfl, h2⟩ := hi
  refine ⟨fun w hw => ?_, c, cs ++ r, rfl, Or.inl h2⟩
  rw [word_append h1 hr]
  exact hn w hw

theorem Starts.other {c : Char} {r : Input} (hc : c ∈ ['(', '{', '~', ':']) : Starts (c :: r) := by
  refine ⟨fun w hw => ?_, c, r, rfl, Or.inr hc⟩
  rw [word_nil (s := c :: r)]
  · have : ∀ w ∈ hardReserved, [] ≠ w.toList := by decide +kernel
    exact this w hw
  · show isIdCont c = false
    simp only [List.mem_cons, List.not_mem_nil, or_false] at hc
    rcases hc with rfl | rfl | rfl | rfl <;> decide

end Verif.Cpp
