/-
C63: `parse_entity` reads `new` expressions (operators/usage.rs 137-163) inside `decltype`.
-/
import Verif.Cpp.SpellingMain
import Verif.Cpp.SpellingExample

set_option autoImplicit false
set_option linter.unusedVariables false
set_option linter.unusedSimpArgs false

namespace Verif.Cpp

/-- What stands between `new` and the type: blanks, or the placement arguments. -/
inductive PlacementText (K : Char → Prop) : Ast (.opt .args) → List Char → Prop where
  | none {b : List Char} : Blank b → b ≠ [] → PlacementText K .none b
  | some {l : Ast (.list .value)} {b t b' : List Char} : Blank b → Spells K (.args l) t → Blank b' →
      PlacementText K (.some (.args l)) (b ++ t ++ b')

/-- Spellings of `new` expressions: `[::]new [(placement)] type`, and
`[::]new [(placement)] type(number, ...)`.  Without placement arguments, the type does not start with a
parenthesis.  Initializers are told from the parameters of a function type by a number that starts them, and
follow a type without declarator. -/
inductive NewText (K : Char → Prop) : Ast .newE → List Char → Prop where
  | plain {rooted : Bool} {p : Ast (.opt .args)} {pt : List Char} {a : Ast .ty} {t b : List Char} :
      PlacementText K p pt → Spells K a t → a.tyOp = false → (p = .none → ∀ u, t ≠ '(' :: u) → Blank b →
      NewText K (.newE rooted p a .none) ((if rooted then "::".toList else []) ++ "new".toList ++ pt ++ t ++ b)
  | init {rooted : Bool} {p : Ast (.opt .args)} {pt : List Char} {cv : CV} {ct b1 : List Char} {simple : Ast .simple}
      {st b2 : List Char} {n : Literal} {tr : Ast (.list .after)} {l : Ast (.list .value)} {c : List Char} {d : Char}
      {u b : List Char} :
      PlacementText K p pt → CvText cv ct → Blank b1 → (ct = [] ↔ b1 = []) → Spells K simple st →
      simple.simpleOp = false → simple.simpleConv = false → (p = .none → ∀ u, ct ++ st ≠ '(' :: u) → Blank b2 →
      Spells K (.args (.cons (.value (.hLit n) tr) l)) ('(' :: c ++ d :: u) → Blank c → d.isDigit = true → Blank b →
      NewText K (.newE rooted p (.ty .nil cv simple .nil) (.some (.args (.cons (.value (.hLit n) tr) l))))
        ((if rooted then "::".toList else []) ++ "new".toList ++ pt ++ (ct ++ b1 ++ st) ++ b2 ++ ('(' :: c ++ d :: u) ++ b)

/-- The type `decltype(new ...)`. -/
def decltypeNew (n : Ast .newE) : Ast .ty :=
  .ty .nil CV.none (.stId (.idExpr (.path false .nil) (.decltype (.value (.hNew n) .nil)))) .nil

theorem args_paren {K : Char → Prop} {l : Ast (.list .value)} {t : Input} (h : Spells K (.args l) t) : ArgsGood l t := by
  obtain ⟨l', e, hl⟩ := spells_good h
  simp only [Ast.args.injEq] at e
  subst e
  exact hl

theorem call_noparen {s : Input} (h : s.head? ≠ Option.some '(') : functionCall grammar s = .err := by
  rw [functionCall, P.charSp]
  exact bind_err (bind_err (char_err h))

theorem placement_run {K : Char → Prop} {p : Ast (.opt .args)} {pt s : Input} (h : PlacementText K p pt)
    (hs : NoSp s) (hp : p = .none → s.head? ≠ Option.some '(') :
    ∃ m o, P.space0 (pt ++ s) = .ok m () ∧ spaced (P.opt (functionCall grammar)) m = .ok s o ∧
      Ast.ofOption (o.map .args) = p := by
  cases h with
  | none hb hne =>
    exact ⟨s, Option.none, space0_run hb hs, spaced_run (b := []) (opt_none (call_noparen (hp rfl))) Blank.nil hs, rfl⟩
  | @some l b t b' hb ht hb' =>
    have hg := args_paren ht
    obtain ⟨u, hu⟩ := hg.paren
    refine ⟨t ++ (b' ++ s), Option.some l, ?_, spaced_run (opt_some (hg.run _)) hb' hs, rfl⟩
    have : b ++ t ++ b' ++ s = b ++ (t ++ (b' ++ s)) := by simp only [List.append_assoc]
    rw [this]
    refine space0_run hb ?_
    rw [hu]
    exact NoSp.cons (by decide)

/-- Reading the type and the initializer is reading the expression. -/
theorem new_run {K : Char → Prop} {rooted : Bool} {p : Ast (.opt .args)} {pt s r r' : Input} {a : Ast .ty}
    {o : Option (Ast (.list .value))} (h : PlacementText K p pt) (hs : NoSp s) (hp : p = .none → s.head? ≠ Option.some '(')
    (h1 : spaced typeLike s = .ok r a) (h2 : P.opt (functionCall grammar) r = .ok r' o) :
    newExpression grammar ((if rooted then "::".toList else []) ++ ("new".toList ++ (pt ++ s))) =
      .ok r' (.newE rooted p a (Ast.ofOption (o.map .args))) := by
  obtain ⟨m, q, g1, g2, g3⟩ := placement_run h hs hp
  have hroot : P.opt (P.tag "::") ((if rooted then "::".toList else []) ++ ("new".toList ++ (pt ++ s))) =
      .ok ("new".toList ++ (pt ++ s)) (if rooted then Option.some () else Option.none) := by
    cases rooted with
    | true => exact opt_some (tag_run _ _)
    | false =>
      refine opt_none (colon_tag ?_)
      have : "new".toList = ['n', 'e', 'w'] := by decide +kernel
      simp [this]
  rw [newExpression, gTy]
  refine bind_step hroot (bind_step (tag_run _ _) (bind_step g1 (bind_step g2 (bind_step h1 (bind_step h2 ?_)))))
  rw [P.pure_run, g3]
  cases rooted <;> rfl

/-- What the arguments of an initializer do after a type. -/
theorem init_type {K : Char → Prop} {cv : CV} {ct b1 st b2 : Input} {simple : Ast .simple} {l : Ast (.list .value)}
    {c u z : Input} {d : Char} (hcv : CvText cv ct) (hb1 : Blank b1) (hcb : ct = [] ↔ b1 = []) (hs : SimpleGood simple st)
    (ho : simple.simpleOp = false) (hcc : simple.simpleConv = false) (hb2 : Blank b2)
    (hl : ∀ r, parameterSet grammar ('(' :: c ++ d :: u ++ r) = .err) (hc : Blank c) (hd : d.isDigit = true) :
    typeLike (ct ++ b1 ++ st ++ b2 ++ ('(' :: c ++ d :: u ++ z)) = .ok ('(' :: c ++ d :: u ++ z) (.ty .nil cv simple .nil) := by
  have e : '(' :: c ++ d :: u ++ z = '(' :: (c ++ d :: (u ++ z)) := by simp only [List.append_assoc, List.cons_append]
  have hd1 : isIdStart d = false ∧ d ∉ ['(', '{', '~', ':'] ∧ P.isSpace d = false ∧ d ≠ '*' := by
    have hf := digit_facts (Or.inl hd)
    refine ⟨hf.1, hf.2.1, hf.2.2.1, ?_⟩
    rintro rfl; revert hd; decide
  have hsig : functionSignature grammar ('(' :: c ++ d :: u ++ z) = .err := by
    rw [functionSignature]
    refine bind_step (opt_none (bind_err (tag_err_head (c := '[') (cs := "abi:".toList) (by decide +kernel) (by simp)))) ?_
    exact bind_err (spaced_err (hl z))
  have hns : NoSp ('(' :: (c ++ d :: (u ++ z))) := NoSp.cons (by decide)
  have hcvp : keywords cvTable ('(' :: (c ++ d :: (u ++ z))) = .err := (noWord_head (by decide)).2.2
  have hend : NameEnd (b2 ++ '(' :: (c ++ d :: (u ++ z))) := by
    have hu : UidEnd ('(' :: (c ++ d :: (u ++ z))) := UidEnd.of (by decide) (by decide) (by decide)
    refine ⟨⟨blank_idHead hb2 fun _ => rfl, ?_, NoEq.blank hb2 hu.noEq⟩, ?_⟩
    · refine bind_step (space0_run hb2 hns) (bind_step (cv_none_run hcvp) (templateParameters_err (by simp)))
    · rw [scopeEnd]
      refine bind_step (opt_none ?_) ?_
      · by_cases hbe : b2 = []
        · subst hbe; rw [← e]; exact hsig
        · exact blank_noSig hb2 hbe
      refine bind_step (many0_err (skip_err hb2 hns (cvOrRef_err hcvp (by simp)))) ?_
      exact bind_err (colon_tag (blank_noColon hb2 (by simp)))
  have hleg : keywords legacyTable ('(' :: (c ++ d :: (u ++ z))) = .err := (noWord_head (by decide)).1
  have hdecl : declOperator grammar ('(' :: (c ++ d :: (u ++ z))) = .err := by
    have hx : declOperator grammar ('(' :: (c ++ d :: (u ++ z))) =
      P.or (P.or (funDecl grammar) (parenDecl grammar)) (memberPointer grammar) ('(' :: (c ++ d :: (u ++ z))) := rfl
    rw [hx]
    refine or_err (or_err ?_ ?_) ?_
    · rw [funDecl, ← e]; exact bind_err hsig
    · rw [parenDecl, gDecl]
      refine bind_step (charSp_run hc (NoSp.cons hd1.2.2.1)) (bind_err (verify_err (a := .nil) (r := d :: (u ++ z)) ?_ rfl))
      rw [declarator_eq, stepDeclarator]
      refine bind_step (many0_err (spaced_err ?_)) (internSeq_nil _)
      have hx : declOperator grammar (d :: (u ++ z)) = memberPointer grammar (d :: (u ++ z)) := by
        have hne : ∀ x : Char, x.isDigit = false → d ≠ x := by
          rintro x hx rfl
          rw [hd] at hx; cases hx
        have hne' : ∀ x : Char, x.isDigit = false → (d :: (u ++ z)).head? ≠ Option.some x := by
          intro x hx e
          exact hne x hx (by simpa using e)
        rw [declOperator, P.byHead]
        rw [if_neg (hne' '&' (by decide)), if_neg (hne' '*' (by decide)), if_neg (hne' '(' (by decide)),
          if_neg (hne' '[' (by decide)), if_neg (hne' '_' (by decide)), if_neg (by
            rintro (h | h)
            · exact hne' 'c' (by decide) h
            · exact hne' 'v' (by decide) h)]
      rw [hx]
      exact memberPointer_bad (badHead_cons hd1.1 hd1.2.1 hd1.2.2.1) (by simpa using hd1.2.2.2)
    · rw [memberPointer]
      have hw : ∀ w ∈ anonWords, word (c ++ d :: (u ++ z)) ≠ w.toList := by
        intro w hw
        cases c with
        | nil =>
          have hw0 : ∀ w ∈ anonWords, ∃ x y, w.toList = x :: y ∧ x.isDigit = false := by
            intro w hw
            simp only [anonWords, List.mem_cons, List.not_mem_nil, or_false] at hw
            rcases hw with rfl | rfl | rfl
            · exact ⟨'l', "ambda".toList, by decide +kernel, by decide⟩
            · exact ⟨'a', "nonymous".toList, by decide +kernel, by decide⟩
            · exact ⟨'u', "nnamed".toList, by decide +kernel, by decide⟩
          obtain ⟨x, y, hxy, hx⟩ := hw0 w hw
          rw [hxy]
          intro ew
          have hid : isIdCont d = true := by simp [isIdCont, hd]
          rw [List.nil_append, word, List.takeWhile_cons, if_pos hid] at ew
          simp only [List.cons.injEq] at ew
          rw [← ew.1, hd] at hx; cases hx
        | cons x c =>
          have hsp : idHead (x :: c ++ d :: (u ++ z)) = false := blank_idHead hc fun e => (nomatch e)
          rw [word_nil hsp]
          clear hsp; revert w; decide +kernel
      refine bind_step (r := '(' :: (c ++ d :: (u ++ z))) (a := .path false .nil) ?_ (bind_err (char_err (by simp)))
      rw [nestedNameSpecifier, protoId_err (paren_uid_err hw) (by simp)]
  rw [e]
  generalize '(' :: (c ++ d :: (u ++ z)) = y at hend hns hdecl hcvp hleg ⊢
  have hri : idHead (b2 ++ y) = false := hend.noId
  have hst : TStarts (ct ++ (b1 ++ (st ++ (b2 ++ y)))) := by
    by_cases hct : ct = []
    · rw [hct, hcb.1 hct]
      exact hs.starts _ hri
    · exact cvText_starts hcv hct (blank_idHead hb1 fun e => absurd (hcb.2 e) hct)
  have hst2 := hs.starts _ hri
  have hcv2 := hs.cv _ hri
  simp only [List.append_assoc]
  rw [typeLike_eq, stepTypeLike]
  refine bind_step (r := ct ++ (b1 ++ (st ++ (b2 ++ y)))) (a := .nil) ?_ ?_
  · refine spaced_run (b := []) ?_ Blank.nil hst.noSp
    rw [attributes]
    exact bind_step (opt_none (bind_err hst.attribute)) (internSeq_nil _)
  refine bind_step (r := st ++ (b2 ++ y)) (a := cv) ?_ ?_
  · refine spaced_run (b := []) ?_ Blank.nil hst2.noSp
    by_cases hct : ct = []
    · rw [hct, hcb.1 hct]
      rw [hct] at hcv
      rw [cvText_nil hcv]
      exact cv_none_run hcv2
    · have := cv_run hcv hb1 (fun e => absurd e hct) hst2.noSp (fun _ e => hct (hcb.2 e)) hcv2 (fun _ => trivial)
      rw [List.append_assoc] at this
      exact this
  refine bind_step (hs.run b2 y hb2 hns hend hleg (by rw [ho]; simp) (by rw [hcc]; simp)) ?_
  rw [stepDeclarator]
  exact bind_step (bind_step (many0_err (spaced_err hdecl)) (internSeq_nil _)) rfl

/-- A `new` expression is read, up to blanks before the closing parenthesis. -/
theorem new_good {K : Char → Prop} {n : Ast .newE} {t : Input} (h : NewText K n t) (r : Input) :
    (∃ b, Blank b ∧ newExpression grammar (t ++ ')' :: r) = .ok (b ++ ')' :: r) n) ∧
    ∃ c u, t = c :: u ∧ (c = ':' ∨ c = 'n') := by
  have hnew : "new".toList = ['n', 'e', 'w'] := by decide +kernel
  have hcol : "::".toList = [':', ':'] := by decide +kernel
  have hhead : ∀ (rooted : Bool) (s : Input), ∃ c u, (if rooted then "::".toList else []) ++ ("new".toList ++ s) = c :: u ∧ (c = ':' ∨ c = 'n') := by
    intro rooted s
    cases rooted with
    | true => exact ⟨':', _, by simp only [hcol, if_true]; rfl, Or.inl rfl⟩
    | false => exact ⟨'n', _, by rw [hnew]; rfl, Or.inr rfl⟩
  cases h with
  | @plain rooted p pt a t b hp ha hop hpar hb =>
    have hg : TyGood a t := spells_good ha
    obtain ⟨c, v, hcv, hc1, -⟩ := hg.head
    constructor
    · refine ⟨[], Blank.nil, ?_⟩
      simp only [List.append_assoc, List.nil_append]
      refine new_run (r := ')' :: r) (o := Option.none) hp (by rw [hcv]; exact NoSp.cons hc1) ?_ ?_ (opt_none (call_noparen (by simp)))
      · intro e
        rw [hcv]
        intro hh
        simp only [List.cons_append, List.head?_cons, Option.some.injEq] at hh
        exact hpar e v (by rw [hcv, hh])
      · exact spaced_run (b := []) (hg.run b _ hb (Stop.close (Or.inl rfl)) (by rw [hop]; simp)) Blank.nil (NoSp.cons (by decide))
    · simp only [List.append_assoc]; exact hhead _ _
  | @init rooted p pt cv ct b1 simple st b2 n tr l c d u b hp hcv hb1 hcb hs ho hcc hpar hb2 ha hc hd hb =>
    have hg := args_paren ha
    have hsg : SimpleGood simple st := spells_good hs
    have hty := init_type (K := K) (l := l) (z := b ++ ')' :: r) hcv hb1 hcb hsg ho hcc hb2
      (hg.refused (.here _ _ rfl rfl)) hc hd
    constructor
    · refine ⟨b, hb, ?_⟩
      have e : (if rooted then "::".toList else []) ++ "new".toList ++ pt ++ (ct ++ b1 ++ st) ++ b2 ++ ('(' :: c ++ d :: u) ++ b ++ ')' :: r =
          (if rooted then "::".toList else []) ++ ("new".toList ++ (pt ++ (ct ++ b1 ++ st ++ b2 ++ ('(' :: c ++ d :: u ++ (b ++ ')' :: r))))) := by
        simp only [List.append_assoc]
      rw [e]
      have hhd : ∃ x y, ct ++ b1 ++ st ++ b2 ++ ('(' :: c ++ d :: u ++ (b ++ ')' :: r)) = x :: y ∧ P.isSpace x = false ∧
          (p = .none → x ≠ '(') := by
        cases hct : ct with
        | nil =>
          rw [hct] at hpar
          rw [hcb.1 hct]
          have hh := hsg.starts [] rfl
          rw [List.append_nil] at hh
          obtain ⟨x, y, hxy, -⟩ := hh.head
          refine ⟨x, _, by rw [hxy]; rfl, hh.noSp x y hxy, fun e ex => hpar e y ?_⟩
          rw [hxy, ex]; rfl
        | cons x y =>
          have hh := cvText_starts (r := []) hcv (by rw [hct]; simp) rfl
          rw [List.append_nil] at hh
          refine ⟨x, _, rfl, hh.noSp x y hct, fun e ex => hpar e (y ++ st) ?_⟩
          rw [hct, ex]; rfl
      obtain ⟨x, y, hxy, hx1, hx2⟩ := hhd
      refine new_run (r := '(' :: c ++ d :: u ++ (b ++ ')' :: r)) (o := Option.some _) hp ?_ ?_ ?_ (opt_some (hg.run _))
      · rw [hxy]; exact NoSp.cons hx1
      · intro e
        rw [hxy]
        simpa using hx2 e
      · exact spaced_run (b := []) hty Blank.nil (NoSp.cons (by decide))
    · simp only [List.append_assoc]; exact hhead _ _

theorem newType_good {K : Char → Prop} {n : Ast .newE} {t b : Input} (hb : Blank b) (h : NewText K n t) :
    UidGood (.decltype (.value (.hNew n) .nil)) ("decltype(".toList ++ b ++ t ++ [')']) := by
  have e : "decltype(".toList = 'd' :: "ecltype(".toList := by decide +kernel
  have e2 : "decltype(".toList = "decltype".toList ++ ['('] := by decide +kernel
  have et : ∀ r, "decltype(".toList ++ b ++ t ++ [')'] ++ r = "decltype(".toList ++ (b ++ (t ++ (')' :: r))) := by
    intro r; simp only [List.append_assoc, List.cons_append, List.nil_append]
  refine ⟨fun r hr => ?_, fun r hr hq => ?_, ?_, fun _ r hr _ => ?_, fun e => (nomatch e)⟩
  · rw [et]
    refine ⟨?_, ?_⟩
    · rw [e2, List.append_assoc, word_append (by decide +kernel) rfl]
      decide +kernel
    · rw [e]; exact ⟨'d', _, rfl, Or.inl (by decide)⟩
  · rw [et, e2, List.append_assoc]
    exact noQuote_word (by decide +kernel) rfl (by simp)
  · rw [e]; exact ⟨'d', _, rfl, by decide, by simp [Ast.plain]⟩
  · rw [et]
    obtain ⟨⟨b', hb', hrun⟩, c, u, hcu, hc⟩ := new_good h r
    have hd : unqualifiedId grammar ("decltype(".toList ++ (b ++ (t ++ (')' :: r)))) =
        P.or (decltypeId grammar) (named grammar false) ("decltype(".toList ++ (b ++ (t ++ (')' :: r)))) := by
      rw [e]; rfl
    rw [hd]
    refine or_l ?_
    rw [decltypeId, gVal]
    refine bind_step (tag_run _ _) ?_
    refine bind_step (space0_run hb (by rw [hcu]; exact NoSp.cons (by rcases hc with rfl | rfl <;> decide))) ?_
    have hs : Stop (')' :: r) := Stop.close (Or.inl rfl)
    refine bind_step (r := b' ++ ')' :: r) (a := .value (.hNew n) .nil) ?_ (bind_step (spChar_run hb' (by decide)) rfl)
    rw [valueLike_eq, stepValueLike]
    have hlit : literal (t ++ ')' :: r) = .err := by
      rw [hcu]
      refine literal_err ?_ ?_ (noDigit_cons ?_) fun r => ⟨?_, ?_, ?_, ?_, ?_⟩
      · rcases hc with rfl | rfl <;> simp
      · rcases hc with rfl | rfl <;> simp
      · rcases hc with rfl | rfl <;> decide
      all_goals (rcases hc with rfl | rfl <;> simp)
    refine bind_step (r := b' ++ ')' :: r) (a := .hNew n) ?_ ?_
    · rw [valueHeader]
      exact or_r (bind_err hlit) (or_l (bind_step hrun rfl))
    · exact bind_step (after_end hb' hs.value (binary_close (Or.inl rfl))) (bind_step (internSeq_nil _) rfl)

/-- **C63.** `new` expressions are read as what they spell. -/
theorem c63_new {K : Char → Prop} {n : Ast .newE} {t b : List Char} (hb : Blank b) (h : NewText K n t) :
    parseEntity ("decltype(".toList ++ b ++ t ++ [')']) = .ok [] (some (decltypeNew n)) := by
  have hid := idExpr_good (path_good (rooted := false) (l := .nil) (t := []) scopesNil_good (by simp [Ast.len])) (newType_good hb h)
  have hg := ty_good cvText_none Blank.nil (by simp) (stId_good hid) (b2 := []) Blank.nil declNil_good (fun _ => rfl)
    (by simp [idHead]) (by simp [Ast.simpleOp, Ast.idOp, Ast.uidOp]) (by simp)
  have hstop : Stop [] := ⟨fun c r e => (nomatch e), NoEq.nil⟩
  have := hg.run [] [] Blank.nil hstop fun _ => ⟨rfl, ⟨NoSym.nil, NoSp.nil, fun r e => by
    have : "[]".toList = '[' :: "]".toList := by decide +kernel
    rw [this] at e; cases e⟩⟩
  simp only [List.append_nil, List.nil_append, if_false, Bool.false_eq_true] at this
  rw [parseEntity]
  exact bind_step (or_l (bind_step this rfl)) rfl

/-- Arguments `(3)`. -/
theorem exArgs_spells : Spells PlainChar (.args (.cons (.value (.hLit ⟨.i64 3, Option.none⟩) .nil) .nil)) "(3)".toList :=
  (Spells.args (b := []) (b' := []) (by intro e; cases e) (by simp [Ast.len]) blank_nil
    (.valuesOne (lit_spells (.pos 3 [] (by decide) (by simp))) rfl) blank_nil).cast (by decide +kernel)

/-- **C63** on `new` expressions: `decltype(new char const *)`, `decltype( ::new (3) char const * )` and
`decltype(new char(3))`. -/
example : parseEntity "decltype(new char const *)".toList = .ok [] (some (decltypeNew (.newE false .none exChar .none))) := by
  have := c63_new (K := PlainChar) (b := []) blank_nil (.plain (rooted := false) (.none blank_one (by simp)) exChar_spells (by decide)
    (fun _ u e => by
      have h2 : "char const *".toList = 'c' :: "har const *".toList := by decide +kernel
      rw [h2] at e; cases e) blank_nil)
  have e : "decltype(".toList ++ [] ++ ((if false = true then "::".toList else []) ++ "new".toList ++ [' '] ++ "char const *".toList ++ []) ++ [')'] =
      "decltype(new char const *)".toList := by decide +kernel
  rw [e] at this
  exact this

example : parseEntity "decltype( ::new (3) char const * )".toList =
    .ok [] (some (decltypeNew (.newE true (.some (.args (.cons (.value (.hLit ⟨.i64 3, Option.none⟩) .nil) .nil))) exChar .none))) := by
  have := c63_new (K := PlainChar) (b := [' ']) blank_one (.plain (rooted := true) (.some blank_one exArgs_spells blank_one) exChar_spells (by decide)
    (fun h => (nomatch h)) blank_one)
  have e : "decltype(".toList ++ [' '] ++ ((if true = true then "::".toList else []) ++ "new".toList ++ ([' '] ++ "(3)".toList ++ [' ']) ++
      "char const *".toList ++ [' ']) ++ [')'] = "decltype( ::new (3) char const * )".toList := by decide +kernel
  rw [e] at this
  exact this

example : parseEntity "decltype(new char(3))".toList =
    .ok [] (some (decltypeNew (.newE false .none (.ty .nil CV.none (.stLegacy .char) .nil)
      (.some (.args (.cons (.value (.hLit ⟨.i64 3, Option.none⟩) .nil) .nil)))))) := by
  have e0 : "(3)".toList = '(' :: [] ++ '3' :: [')'] := by decide +kernel
  have hx : "char".toList = 'c' :: "har".toList := by decide +kernel
  have := c63_new (K := PlainChar) (b := []) blank_nil (.init (rooted := false) (b1 := []) (b2 := []) (c := []) (d := '3') (u := [')']) (b := [])
    (.none blank_one (by simp)) cvText_none blank_nil (by simp)
    (.legacy (n := .char) (t := "char".toList) ⟨["char"], ⟨["char"], by decide, by decide⟩, .one "char"⟩) rfl rfl
    (fun _ u e => by rw [hx] at e; cases e) blank_nil (exArgs_spells.cast e0) blank_nil (by decide) blank_nil)
  have e : "decltype(".toList ++ [] ++ ((if false = true then "::".toList else []) ++ "new".toList ++ [' '] ++ ([] ++ [] ++ "char".toList) ++ [] ++
      ('(' :: [] ++ '3' :: [')']) ++ []) ++ [')'] = "decltype(new char(3))".toList := by decide +kernel
  rw [e] at this
  exact this

end Verif.Cpp
