/-
C63: operator names, source locations and anonymous entities read back what they spell.
-/
import Verif.Cpp.SpellingNames

set_option autoImplicit false
set_option linter.unusedVariables false
set_option linter.unusedSimpArgs false

namespace Verif.Cpp

theorem peek_run {α : Type} {p : P α} {s r : Input} {a : α} (h : p s = .ok r a) : P.peek p s = .ok s a := by
  rw [P.peek, h]

/-! ## Operators -/

theorem NoSym.cons {c : Char} {s : Input} (h : symbolOf c = none) : NoSym (c :: s) := by
  intro y t e
  simp only [List.cons.injEq] at e
  rw [e.1, symbolOf_char] at h; cases h

theorem NoSym.nil : NoSym [] := by intro y t e; cases e

theorem NoSym.head {s : Input} (h : NoSym s) (y : Symbol) : s.head? ≠ some y.char := by
  cases s with
  | nil => simp
  | cons c r =>
    intro e
    simp only [List.head?_cons, Option.some.injEq] at e
    exact h y r (by rw [e])

theorem nospace_sym (y : Symbol) : P.isSpace y.char = false := by cases y <;> decide

theorem aat_ok {p : P ArithOp} {o : ArithOp} {s b u r : Input} {tp : Option (Ast .tparams)}
    (h : p s = .ok (b ++ u) o) (hb : Blank b) (hu : NoSp u)
    (ht : P.opt (templateParameters grammar) u = .ok r tp) (hr : NoSym r) :
    arithAndTemplates grammar p s = .ok r (.arith o, tp) := by
  rw [arithAndTemplates]
  refine bind_step h (bind_step (space0_run hb hu) (bind_step ht ?_))
  exact bind_step (peek_run (opt_none (symbol_nosym hr))) rfl

theorem aat_err {p : P ArithOp} {s : Input} (h : p s = .err) : arithAndTemplates grammar p s = .err := by
  rw [arithAndTemplates]
  exact bind_err h

theorem aat_more {p : P ArithOp} {o : ArithOp} {s u : Input} {y : Symbol}
    (h : p s = .ok (y.char :: u) o) (ht : templateParameters grammar (y.char :: u) = .err) :
    arithAndTemplates grammar p s = .err := by
  rw [arithAndTemplates]
  refine bind_step h (bind_step (space0_id (NoSp.cons (nospace_sym y))) (bind_step (opt_none ht) ?_))
  exact bind_step (peek_run (opt_some (symbol_char_run y u))) rfl

/-- The three ways to read an arithmetic operator. -/
def arithName : P (Ast .op × Option (Ast .tparams)) :=
  P.or (P.or (arithAndTemplates grammar arith1) (arithAndTemplates grammar arith2))
    (arithAndTemplates grammar arith3)

theorem noTemplate_sym {y : Symbol} {u : Input} (h : y ≠ .less) :
    templateParameters grammar (y.char :: u) = .err := by
  apply templateParameters_err
  simp only [List.head?_cons]
  intro e
  apply h
  have := symbolOf_char y
  rw [Option.some.inj e] at this
  exact (Option.some.inj this).symm

theorem templates_less {y : Symbol} {u : Input} (h : y = .less ∨ y = .assignEq) :
    templateParameters grammar ('<' :: y.char :: u) = .err := by
  refine templateParameters_noValue (b := []) Blank.nil ?_ ?_ ?_
  · intro c r e
    simp only [List.cons.injEq] at e
    rw [← e.1]
    rcases h with rfl | rfl <;> decide
  · rcases h with rfl | rfl <;> simp [Symbol.char]
  · intro r e
    have : ", void>".toList = ',' :: " void>".toList := by decide +kernel
    rw [this] at e
    simp only [List.cons_append, List.cons.injEq] at e
    rcases h with rfl | rfl <;> exact absurd e.1 (by decide)

theorem arith_run {o : ArithOp} (ho : o.canonical = true) {b u r : Input} {tp : Option (Ast .tparams)}
    (hb : Blank b) (hu : NoSp u)
    (ht : P.opt (templateParameters grammar) u = .ok r tp) (hr : NoSym r)
    (hl : o = .basic .less true false → templateParameters grammar ('<' :: (b ++ u)) = .err) :
    arithName (o.text ++ (b ++ u)) = .ok r (.arith o, tp) := by
  rw [arithName]
  cases o with
  | basic y twice equal =>
    cases twice <;> cases equal
    · exact or_l (or_l (aat_ok (p := arith1) (b := b) (u := u) (arith1_run y _) hb hu ht hr))
    · refine or_l (or_r ?_ (aat_ok (p := arith2) (o := .basic y false true) (b := b) (u := u) ?_ hb hu ht hr))
      · exact aat_more (y := .assignEq) (arith1_run y _) (noTemplate_sym (by decide))
      · show arith2 (y.char :: Symbol.assignEq.char :: (b ++ u)) = _
        rw [arith2_run, if_pos rfl]
    · have hy : y ≠ .assignEq := by
        rintro rfl; cases ho
      refine or_l (or_r ?_ (aat_ok (p := arith2) (o := .basic y true false) (b := b) (u := u) ?_ hb hu ht hr))
      · refine aat_more (y := y) (arith1_run y _) ?_
        by_cases hy' : y = .less
        · subst hy'; exact hl rfl
        · exact noTemplate_sym hy'
      · show arith2 (y.char :: y.char :: (b ++ u)) = _
        rw [arith2_run, if_neg hy, if_pos rfl]
    · refine or_r (or_err ?_ ?_)
        (aat_ok (p := arith3) (o := .basic y true true) (b := b) (u := u) ?_ hb hu ht hr)
      · refine aat_more (y := y) (u := Symbol.assignEq.char :: (b ++ u)) (arith1_run y _) ?_
        by_cases hy' : y = .less
        · subst hy'; exact templates_less (Or.inr rfl)
        · exact noTemplate_sym hy'
      · refine aat_more (p := arith2) (y := .assignEq) (u := b ++ u) (s := y.char :: y.char :: Symbol.assignEq.char :: (b ++ u))
          (o := if y = .assignEq then .basic y false true else .basic y true false) ?_ (noTemplate_sym (by decide))
        rw [arith2_run]
        by_cases hy : y = .assignEq
        · rw [if_pos hy, if_pos hy]
        · rw [if_neg hy, if_pos rfl, if_neg hy]
      · show arith3 (y.char :: y.char :: Symbol.assignEq.char :: (b ++ u)) = _
        rw [arith3_run, if_pos ⟨rfl, rfl⟩]
  | deref star =>
    cases star
    · refine or_l (or_r ?_ (aat_ok (p := arith2) (o := .deref false) (b := b) (u := u) ?_ hb hu ht hr))
      · exact aat_more (y := .greater) (arith1_run .subNeg _) (noTemplate_sym (by decide))
      · exact arith2_run .subNeg .greater _
    · refine or_r (or_err ?_ ?_) (aat_ok (p := arith3) (o := .deref true) (b := b) (u := u) ?_ hb hu ht hr)
      · exact aat_more (y := .greater) (arith1_run .subNeg _) (noTemplate_sym (by decide))
      · exact aat_more (p := arith2) (y := .mulDeref) (arith2_run .subNeg .greater _) (noTemplate_sym (by decide))
      · exact arith3_run .subNeg .greater .mulDeref _
  | spaceship =>
    refine or_r (or_err ?_ ?_) (aat_ok (p := arith3) (o := .spaceship) (b := b) (u := u) ?_ hb hu ht hr)
    · exact aat_more (y := .assignEq) (arith1_run .less _) (noTemplate_sym (by decide))
    · exact aat_more (p := arith2) (y := .greater) (arith2_run .less .assignEq _) (noTemplate_sym (by decide))
    · exact arith3_run .less .assignEq .greater _

theorem arithName_err {s : Input} (h : NoSym s) : arithName s = .err :=
  or_err (or_err (aat_err (arith1_short1 h)) (aat_err (arith2_short1 h))) (aat_err (arith3_short1 h))

theorem blank_noSym {b s : Input} (hb : Blank b) (h : b ≠ [] ∨ NoSym s) : NoSym (b ++ s) := by
  cases b with
  | nil => exact h.resolve_left (by simp)
  | cons c b =>
    apply NoSym.cons
    have := hb c (by simp)
    cases hy : symbolOf c with
    | none => rfl
    | some y =>
      rw [symbolOf_some hy, nospace_sym] at this; cases this

theorem ident_noSym {c : Char} {r : Input} (h : isIdStart c = true) : NoSym (c :: r) := by
  apply NoSym.cons
  cases hy : symbolOf c with
  | none => rfl
  | some y =>
    rw [symbolOf_some hy] at h
    cases y <;> revert h <;> decide

theorem callOrIndex_err {s : Input} (h1 : s.head? ≠ some '(') (h2 : s.head? ≠ some '[') : callOrIndex s = .err := by
  rw [callOrIndex]
  exact or_err (bind_err (tag_err_head (c := '(') (cs := [')']) (by decide +kernel) h1))
    (bind_err (tag_err_head (c := '[') (cs := [']']) (by decide +kernel) h2))

theorem blank_head {b s : Input} (hb : Blank b) (hne : b ≠ []) {c : Char} (hc : P.isSpace c = false) :
    (b ++ s).head? ≠ some c := by
  cases b with
  | nil => exact absurd rfl hne
  | cons d b =>
    intro e
    simp only [List.cons_append, List.head?_cons, Option.some.injEq] at e
    rw [← e, hb d (by simp)] at hc; cases hc

theorem blank_idHead {b s : Input} (hb : Blank b) (h : b = [] → idHead s = false) : idHead (b ++ s) = false := by
  cases b with
  | nil => exact h rfl
  | cons c b =>
    show isIdCont c = false
    have := hb c (by simp)
    cases hc : isIdCont c with
    | false => rfl
    | true =>
      have h2 := NoSp.ident (r := []) hc c [] rfl
      rw [this] at h2; cases h2

/-- The part of an operator name that is not arithmetic. -/
theorem other_run {o : Ast .op} {t r : Input} (h : OpText o t) (hna : ∀ a, o ≠ .arith a)
    (hid : idHead r = false) (hx : ∀ u, r ≠ "[]".toList ++ u) :
    arithName (t ++ r) = .err ∧ otherOverload grammar (t ++ r) = .ok r o := by
  cases h with
  | arith o ho => exact absurd rfl (hna o)
  | call =>
    refine ⟨arithName_err (NoSym.cons (by decide)), ?_⟩
    rw [otherOverload]
    exact or_l (or_l (or_l (bind_step (tag_run "()" r) rfl)))
  | index =>
    refine ⟨arithName_err (NoSym.cons (by decide)), ?_⟩
    rw [otherOverload]
    refine or_l (or_l (or_r (bind_err ?_) (bind_step (tag_run "[]" r) rfl)))
    exact tag_err_head (c := '(') (cs := [')']) (by decide +kernel) (by simp)
  | custom b b' i hb hb' hi =>
    have e : "\"\"".toList = ['"', '"'] := by decide +kernel
    have hq : NoSp ("\"\"".toList ++ (b' ++ (i ++ r))) := by rw [e]; exact NoSp.cons (by decide)
    obtain ⟨hi1, c, cs, hi2, hi3⟩ := id hi
    have hi4 : NoSp (i ++ r) := by rw [hi2]; exact NoSp.ident (idStart_cont hi3)
    have et : b ++ "\"\"".toList ++ b' ++ i ++ r = b ++ ("\"\"".toList ++ (b' ++ (i ++ r))) := by
      simp only [List.append_assoc]
    rw [et]
    refine ⟨arithName_err (blank_noSym hb (Or.inr ?_)), ?_⟩
    · rw [e]; exact NoSym.cons (by decide)
    rw [otherOverload]
    refine or_l (or_r ?_ ?_)
    · cases b with
      | nil => rw [e]; exact callOrIndex_err (by simp) (by simp)
      | cons d b =>
        exact callOrIndex_err (blank_head hb (by simp) (by decide)) (blank_head hb (by simp) (by decide))
    · refine bind_step (space0_run hb hq) ?_
      rw [customLiteral]
      refine bind_step (tag_run _ _) (bind_step (space0_run hb' hi4) ?_)
      exact bind_step (identifier_run hi hid) rfl
  | newDelete b d a hb hne =>
    have hw : ∀ c ∈ (if d then "delete" else "new").toList, isIdCont c = true := by
      cases d <;> decide +kernel
    have hns : NoSp ((if d then "delete" else "new").toList ++ ((if a then "[]".toList else []) ++ r)) := by
      cases d
      · exact NoSp.cons (by decide)
      · exact NoSp.cons (by decide)
    have et : b ++ (if d then "delete" else "new").toList ++ (if a then "[]".toList else []) ++ r =
        b ++ ((if d then "delete" else "new").toList ++ ((if a then "[]".toList else []) ++ r)) := by
      simp only [List.append_assoc]
    rw [et]
    refine ⟨arithName_err (blank_noSym hb (Or.inl hne)), ?_⟩
    rw [otherOverload]
    refine or_r (or_err ?_ ?_) ?_
    · exact callOrIndex_err (blank_head hb hne (by decide)) (blank_head hb hne (by decide))
    · refine bind_step (space0_run hb hns) (bind_err ?_)
      refine tag_err_head (c := '"') (cs := ['"']) (by decide +kernel) ?_
      cases d
      · show some 'n' ≠ some '"'; decide
      · show some 'd' ≠ some '"'; decide
    refine bind_step (space1_run hb hne hns) (or_l (or_l ?_))
    have hid' : idHead ((if a then "[]".toList else []) ++ r) = false := by
      cases a
      · exact hid
      · rfl
    have hopt : ∀ d', (do let x ← P.opt (P.tag "[]"); pure (Ast.newDelete d' x.isSome) : P (Ast .op))
        ((if a then "[]".toList else []) ++ r) = .ok r (.newDelete d' a) := by
      intro d'
      cases a
      · exact bind_step (opt_none (tag_err hx)) rfl
      · exact bind_step (opt_some (tag_run "[]" r)) rfl
    cases d
    · refine or_l ?_
      rw [newOverload]
      exact bind_step (keyword_run (w := "new") hw hid') (hopt false)
    · refine or_r ?_ ?_
      · rw [newOverload]
        refine bind_err (keyword_err (by decide +kernel) ?_)
        have hw' : ∀ c ∈ "delete".toList, isIdCont c = true := hw
        show word ("delete".toList ++ _) ≠ _
        rw [word_append hw' hid']; decide +kernel
      · rw [deleteOp]
        exact bind_step (keyword_run (w := "delete") hw hid') (hopt true)
  | coAwait b hb hne =>
    have hw : ∀ c ∈ "co_await".toList, isIdCont c = true := by decide +kernel
    have hns : NoSp ("co_await".toList ++ r) := NoSp.cons (by decide)
    rw [List.append_assoc]
    refine ⟨arithName_err (blank_noSym hb (Or.inl hne)), ?_⟩
    rw [otherOverload]
    refine or_r (or_err ?_ ?_) ?_
    · exact callOrIndex_err (blank_head hb hne (by decide)) (blank_head hb hne (by decide))
    · refine bind_step (space0_run hb hns) (bind_err ?_)
      exact tag_err_head (c := '"') (cs := ['"']) (by decide +kernel) (by simp)
    refine bind_step (space1_run hb hne hns) (or_l (or_r (or_err ?_ ?_) ?_))
    · rw [newOverload]
      refine bind_err (keyword_err (by decide +kernel) ?_)
      rw [word_append hw hid]; decide +kernel
    · rw [deleteOp]
      refine bind_err (keyword_err (by decide +kernel) ?_)
      rw [word_append hw hid]; decide +kernel
    · rw [coAwaitOp]
      exact bind_step (keyword_run hw hid) rfl

theorem opText_idHead {o : Ast .op} {t r : Input} (h : OpText o t) : idHead (t ++ r) = false := by
  have hb : ∀ b s, Blank b → b ≠ [] → idHead (b ++ s) = false := fun b s hb hne =>
    blank_idHead hb (fun e => absurd e hne)
  cases h with
  | arith o ho =>
    cases o with
    | basic y t e => cases y <;> rfl
    | deref s => rfl
    | spaceship => rfl
  | call => rfl
  | index => rfl
  | custom b b' i hb hb' hi =>
    simp only [List.append_assoc]
    exact blank_idHead hb fun _ => rfl
  | newDelete b d a hb hne =>
    simp only [List.append_assoc]
    exact blank_idHead hb fun e => absurd e hne
  | coAwait b hb hne =>
    simp only [List.append_assoc]
    exact blank_idHead hb fun e => absurd e hne

theorem operatorWord : ∀ c ∈ "operator".toList, isIdCont c = true := by decide +kernel

theorem operatorOverload_arith {o : ArithOp} {s r : Input} {x : Ast .op × Option (Ast .tparams)}
    (hid : idHead s = false) (h : arithName s = .ok r x) :
    operatorOverload grammar ("operator".toList ++ s) = .ok r x := by
  rw [operatorOverload]
  exact bind_step (keyword_run operatorWord hid) (or_l h)

/-- An operator name without template parameters. -/
theorem operator_run {o : Ast .op} {t r : Input} (h : OpText o t)
    (hl : o ≠ .arith (.basic .less true false)) (hid : idHead r = false) (hr : OpEnd r) :
    operatorOverload grammar ("operator".toList ++ t ++ r) = .ok r (o, none) := by
  have ht : P.opt (templateParameters grammar) r = .ok r none :=
    opt_none (templateParameters_err (hr.noSym.head .less))
  rw [List.append_assoc, operatorOverload]
  refine bind_step (keyword_run operatorWord (opText_idHead h)) ?_
  by_cases ha : ∃ a, o = .arith a
  · obtain ⟨a, rfl⟩ := ha
    cases h with
    | arith a ho =>
      exact or_l (arith_run (b := []) ho Blank.nil hr.noSp ht hr.noSym fun e => absurd (by rw [e]) hl)
  · obtain ⟨h1, h2⟩ := other_run h (fun a e => ha ⟨a, e⟩) hid hr.noIndex
    refine or_r h1 (bind_step h2 ?_)
    exact bind_step (space0_id hr.noSp) (bind_step ht rfl)

/-- An operator name with template parameters. -/
theorem operatorT_run {o : Ast .op} {t b tt r : Input} {tp : Ast .tparams} (h : OpText o t) (hb : Blank b)
    (h1 : ∃ u, tt = '<' :: u) (ht : templateParameters grammar (tt ++ r) = .ok r tp) (hr : NoSym r) :
    operatorOverload grammar ("operator".toList ++ t ++ b ++ tt ++ r) = .ok r (o, some tp) := by
  obtain ⟨u, rfl⟩ := h1
  have et : "operator".toList ++ t ++ b ++ '<' :: u ++ r = "operator".toList ++ (t ++ (b ++ ('<' :: u ++ r))) := by
    simp only [List.append_assoc]
  have hns : NoSp ('<' :: u ++ r) := NoSp.cons (by decide)
  rw [et, operatorOverload]
  refine bind_step (keyword_run operatorWord (opText_idHead h)) ?_
  by_cases ha : ∃ a, o = .arith a
  · obtain ⟨a, rfl⟩ := ha
    cases h with
    | arith a ho =>
      refine or_l (arith_run ho hb hns (opt_some ht) hr fun e => ?_)
      refine templateParameters_noValue hb ?_ ?_ ?_
      · intro c r' e'
        simp only [List.cons_append, List.cons.injEq] at e'
        rw [← e'.1]; decide
      · simp
      · intro r' e'
        have : ", void>".toList = ',' :: " void>".toList := by decide +kernel
        rw [this] at e'
        simp only [List.cons_append, List.cons.injEq] at e'
        exact absurd e'.1 (by decide)
  · have hid : idHead (b ++ ('<' :: u ++ r)) = false := blank_idHead hb fun _ => rfl
    obtain ⟨h1, h2⟩ := other_run h (fun a e => ha ⟨a, e⟩) hid (by
      intro v e
      cases b with
      | nil => simp only [List.nil_append, List.cons_append] at e; cases e
      | cons c b =>
        have e' : "[]".toList = '[' :: [']'] := by decide +kernel
        rw [e'] at e
        simp only [List.cons_append, List.cons.injEq] at e
        have := hb c (by simp)
        rw [e.1] at this; revert this; decide)
    refine or_r h1 (bind_step h2 ?_)
    exact bind_step (space0_run hb hns) (bind_step (opt_some ht) rfl)

/-- A conversion operator. -/
theorem conversion_run {a : Ast .ty} {b s r : Input} (hb : Blank b) (hne : b ≠ []) (hs : AStarts s)
    (h : typeLike s = .ok r a) (hr : NoSp r) (hr' : r.head? ≠ some '<') :
    operatorOverload grammar ("operator".toList ++ (b ++ s)) = .ok r (.conversion a, none) := by
  rw [operatorOverload]
  refine bind_step (keyword_run operatorWord (blank_idHead hb fun e => absurd e hne)) ?_
  refine or_r (arithName_err (blank_noSym hb (Or.inl hne))) ?_
  refine bind_step (r := r) (a := .conversion a) ?_ ?_
  · rw [otherOverload]
    refine or_r (or_err ?_ ?_) ?_
    · exact callOrIndex_err (blank_head hb hne (by decide)) (blank_head hb hne (by decide))
    · refine bind_step (space0_run hb hs.noSp) (bind_err ?_)
      exact tag_err_head (c := '"') (cs := ['"']) (by decide +kernel) (hs.ne (by decide) (by decide))
    · refine bind_step (space1_run hb hne hs.noSp) (or_r (or_err (or_err ?_ ?_) ?_) ?_)
      · rw [newOverload]
        exact bind_err (keyword_err (by decide +kernel) (hs.word _ (by decide)))
      · rw [deleteOp]
        exact bind_err (keyword_err (by decide +kernel) (hs.word _ (by decide)))
      · rw [coAwaitOp]
        exact bind_err (keyword_err (by decide +kernel) (hs.word _ (by decide)))
      · rw [gTy]
        exact bind_step h rfl
  · exact bind_step (space0_id hr) (bind_step (opt_none (templateParameters_err hr')) rfl)

/-! ## Source locations and anonymous entities -/

theorem location_run {l : Loc} {t r : Input} (h : LocText l t) (hr : NoDigit r) :
    sourceLocation (t ++ r) = .ok r l := by
  obtain ⟨hl, hc, p, ⟨⟨q, rfl⟩, hcol, hne, hlen, hf⟩, rfl⟩ := h
  have hq : q ≠ [] := by
    rintro rfl; exact hne (by decide)
  have et : '/' :: q ++ ':' :: digits l.line ++ ':' :: digits l.col ++ r =
      '/' :: q ++ ':' :: (digits l.line ++ ':' :: (digits l.col ++ r)) := by
    simp only [List.append_assoc, List.cons_append]
  rw [et, sourceLocation]
  have hpt : pathText ('/' :: q ++ ':' :: (digits l.line ++ ':' :: (digits l.col ++ r))) =
      .ok (':' :: (digits l.line ++ ':' :: (digits l.col ++ r))) ('/' :: q) := by
    rw [pathText]
    refine bind_step (opt_none ?_) ?_
    · refine bind_step (r := q ++ ':' :: (digits l.line ++ ':' :: (digits l.col ++ r))) (a := '/') rfl ?_
      refine bind_err (char_err ?_)
      cases q with
      | nil => exact absurd rfl hq
      | cons c q =>
        intro e
        simp only [List.cons_append, List.head?_cons, Option.some.injEq] at e
        exact hcol (by simp [e])
    · refine bind_step (r := ':' :: (digits l.line ++ ':' :: (digits l.col ++ r))) (a := '/' :: q) ?_ rfl
      have := takeWhile_append_of_end (f := fun c => c != ':') (w := '/' :: q)
        (t := ':' :: (digits l.line ++ ':' :: (digits l.col ++ r))) (by
          intro c hcm
          simp only [bne_iff_ne]
          rintro rfl
          exact hcol hcm) (by
          intro c t e
          simp only [List.cons.injEq] at e
          rw [← e.1]; rfl)
      rw [P.takeWhile1]
      refine verify_run ?_ rfl
      rw [P.takeWhile, this.1, this.2]
  refine bind_step hpt ?_
  refine bind_step (a := l.file) (r := ':' :: (digits l.line ++ ':' :: (digits l.col ++ r))) ?_ ?_
  · rw [internPath]
    have h1 : Intern.isRelative ('/' :: q) = false := rfl
    rw [h1, if_neg (by simp), if_pos (by omega), hf]
    rfl
  refine bind_step (char_run _ _) ?_
  refine bind_step (uint_run hl (by intro c u e; cases e; decide)) ?_
  refine bind_step (char_run _ _) ?_
  exact bind_step (uint_run hc hr) rfl

theorem noDigit_cons {c : Char} {s : Input} (h : c.isDigit = false) : NoDigit (c :: s) := by
  intro d r e; cases e; exact h

theorem clangLambda_run {l : Loc} {t r : Input} (h : LocText l t) :
    anonymous grammar ("(lambda at ".toList ++ t ++ [')'] ++ r) = .ok r (.clangLambda l) := by
  rw [anonymous, P.byHead]
  have hh : ("(lambda at ".toList ++ t ++ [')'] ++ r).head? = some '(' := by
    have : "(lambda at ".toList = '(' :: "lambda at ".toList := by decide +kernel
    rw [this]; rfl
  rw [hh]
  simp only [if_true]
  refine or_l ?_
  rw [clangLambda]
  have et : "(lambda at ".toList ++ t ++ [')'] ++ r = "(lambda at ".toList ++ (t ++ (')' :: r)) := by
    simp only [List.append_assoc, List.cons_append, List.nil_append]
  rw [et]
  refine bind_step (tag_run _ _) (bind_step (location_run h (noDigit_cons (by decide))) ?_)
  exact bind_step (char_run _ _) rfl

theorem anonWord_tag {w : String} (hw : w ∈ ["anonymous", "unnamed"]) (r : Input) :
    P.or (P.tag "anonymous") (P.tag "unnamed") (w.toList ++ r) = .ok r () := by
  simp only [List.mem_cons, List.not_mem_nil, or_false] at hw
  rcases hw with rfl | rfl
  · exact or_l (tag_run _ _)
  · exact or_r (tag_err_head (c := 'a') (cs := "nonymous".toList) (by decide +kernel) (by
      have : "unnamed".toList = 'u' :: "nnamed".toList := by decide +kernel
      rw [this]; simp)) (tag_run _ _)

/-- Reading `(anonymous` or `(unnamed`. -/
theorem clangOther_run {w : String} (hw : w ∈ ["anonymous", "unnamed"]) {s r : Input} {x : Ast .anon}
    (h : (do let i ← P.opt (do P.char ' '; identifier)
             let l ← P.opt (do P.tag " at "; sourceLocation)
             P.char ')'
             pure (Ast.clangOther i l) : P (Ast .anon)) s = .ok r x) :
    anonymous grammar ('(' :: w.toList ++ s) = .ok r x := by
  rw [anonymous, P.byHead]
  simp only [List.cons_append, List.head?_cons, if_true]
  refine or_r ?_ ?_
  · rw [clangLambda]
    refine bind_err (tag_err ?_)
    intro u e
    have : "(lambda at ".toList = '(' :: 'l' :: "ambda at ".toList := by decide +kernel
    rw [this] at e
    simp only [List.mem_cons, List.not_mem_nil, or_false] at hw
    rcases hw with rfl | rfl
    · have h2 : "anonymous".toList = 'a' :: "nonymous".toList := by decide +kernel
      rw [h2] at e; simp at e
    · have h2 : "unnamed".toList = 'u' :: "nnamed".toList := by decide +kernel
      rw [h2] at e; simp at e
  · rw [clangAnonymous]
    exact bind_step (char_run _ _) (bind_step (anonWord_tag hw s) h)

theorem anonymous_run {w : String} (hw : w ∈ ["anonymous", "unnamed"]) (r : Input) :
    anonymous grammar ('(' :: w.toList ++ [')'] ++ r) = .ok r (.clangOther none none) := by
  rw [List.append_assoc]
  refine clangOther_run hw ?_
  refine bind_step (opt_none (bind_err (char_err (by simp)))) ?_
  refine bind_step (opt_none (bind_err (tag_err_head (c := ' ') (cs := "at ".toList) (by decide +kernel) (by simp)))) ?_
  exact bind_step (char_run _ _) rfl

theorem anonymousKind_run {w : String} {i : Ident} (hw : w ∈ ["anonymous", "unnamed"]) (hi : IsIdent i)
    (r : Input) :
    anonymous grammar ('(' :: w.toList ++ ' ' :: i ++ [')'] ++ r) = .ok r (.clangOther (some i) none) := by
  have et : '(' :: w.toList ++ ' ' :: i ++ [')'] ++ r = '(' :: w.toList ++ (' ' :: (i ++ (')' :: r))) := by
    simp only [List.append_assoc, List.cons_append, List.nil_append]
  rw [et]
  refine clangOther_run hw ?_
  refine bind_step (opt_some (bind_step (char_run _ _) (identifier_run hi rfl))) ?_
  refine bind_step (opt_none (bind_err (tag_err_head (c := ' ') (cs := "at ".toList) (by decide +kernel) (by simp)))) ?_
  exact bind_step (char_run _ _) rfl

theorem anonymousAt_run {w : String} {i : Ident} {l : Loc} {t : List Char}
    (hw : w ∈ ["anonymous", "unnamed"]) (hi : IsIdent i) (ht : LocText l t) (r : Input) :
    anonymous grammar ('(' :: w.toList ++ ' ' :: i ++ " at ".toList ++ t ++ [')'] ++ r) =
      .ok r (.clangOther (some i) (some l)) := by
  have et : '(' :: w.toList ++ ' ' :: i ++ " at ".toList ++ t ++ [')'] ++ r =
      '(' :: w.toList ++ (' ' :: (i ++ (" at ".toList ++ (t ++ (')' :: r))))) := by
    simp only [List.append_assoc, List.cons_append, List.nil_append]
  rw [et]
  refine clangOther_run hw ?_
  refine bind_step (opt_some (bind_step (char_run _ _) (identifier_run hi rfl))) ?_
  refine bind_step (opt_some (bind_step (tag_run _ _) (location_run ht (noDigit_cons (by decide))))) ?_
  exact bind_step (char_run _ _) rfl

theorem libUnnamed_run {n : Nat} (hn : n < 2 ^ 32) (r : Input) :
    anonymous grammar ("{unnamed type#".toList ++ digits n ++ ['}'] ++ r) = .ok r (.libUnnamed n) := by
  have et : "{unnamed type#".toList ++ digits n ++ ['}'] ++ r =
      "{unnamed type#".toList ++ (digits n ++ ('}' :: r)) := by
    simp only [List.append_assoc, List.cons_append, List.nil_append]
  have e1 : "{unnamed type#".toList = '{' :: 'u' :: "nnamed type#".toList := by decide +kernel
  rw [et, anonymous, P.byHead]
  have hh : ("{unnamed type#".toList ++ (digits n ++ ('}' :: r))).head? = some '{' := by
    rw [e1]; rfl
  rw [hh]
  simp only [reduceCtorEq, Option.some.injEq, if_false, show ¬ ('{' = '(') by decide]
  refine or_r ?_ ?_
  · rw [libibertyLambda]
    refine bind_err (tag_err ?_)
    intro u e
    have : "{lambda".toList = '{' :: 'l' :: "ambda".toList := by decide +kernel
    rw [this, e1] at e
    simp at e
  · rw [libibertyUnnamed]
    refine bind_step (tag_run _ _) (bind_step (uint_run hn (noDigit_cons (by decide))) ?_)
    exact bind_step (char_run _ _) rfl

theorem libLambda_run {sg : Ast .sig} {t b : Input} {n : Nat} (hn : n < 2 ^ 32) (r : Input)
    (h : functionSignature grammar (t ++ b ++ '#' :: (digits n ++ '}' :: r)) =
      .ok ('#' :: (digits n ++ '}' :: r)) sg) :
    anonymous grammar ("{lambda".toList ++ t ++ b ++ '#' :: digits n ++ ['}'] ++ r) =
      .ok r (.libLambda sg n) := by
  have et : "{lambda".toList ++ t ++ b ++ '#' :: digits n ++ ['}'] ++ r =
      "{lambda".toList ++ (t ++ b ++ '#' :: (digits n ++ '}' :: r)) := by
    simp only [List.append_assoc, List.cons_append, List.nil_append]
  rw [et, anonymous, P.byHead]
  have hh : ("{lambda".toList ++ (t ++ b ++ '#' :: (digits n ++ '}' :: r))).head? = some '{' := by
    have e1 : "{lambda".toList = '{' :: "lambda".toList := by decide +kernel
    rw [e1]; rfl
  rw [hh]
  simp only [reduceCtorEq, Option.some.injEq, if_false, show ¬ ('{' = '(') by decide]
  refine or_l ?_
  rw [libibertyLambda]
  refine bind_step (tag_run _ _) (bind_step h ?_)
  refine bind_step (char_run _ _) ?_
  exact bind_step (uint_run hn (noDigit_cons (by decide))) (bind_step (char_run _ _) rfl)

end Verif.Cpp
