/-
C63: what follows values reads back what it spells, when its parts do.
-/
import Verif.Cpp.SpellingValues

set_option autoImplicit false
set_option linter.unusedVariables false
set_option linter.unusedSimpArgs false

namespace Verif.Cpp

/-! ## Values do not start with an arrow -/

theorem valueLike_arrow (ac ag : Bool) (s : Input) : valueLike ac ag ('-' :: '>' :: s) = .err := by
  refine valueLike_none ac ag (sign_literal_err (Or.inl rfl) (noDigit_cons (by decide))) (not_new_head (by simp) (by simp))
    (by simp) (by simp) (idExpression_bad (badHead_cons (by decide) (by decide) (by decide))) ?_ (by simp) (by simp)
  rw [unaryOp]
  refine bind_step (r := '>' :: s) (a := .arith (.basic .subNeg false false)) ?_ ?_
  · rw [unaryPrefix]
    refine or_l (spaced_run (b := []) (or_r (or_err ?_ (bind_err (incDec_err (by simp) (by simp)))) ?_) Blank.nil (NoSp.cons (by decide)))
    · exact bind_err (charSp_err (by simp))
    · rw [unarySymbol]; rfl
  · refine bind_step (space0_id (NoSp.cons (by decide))) ?_
    rw [gVal]
    refine bind_err (valueLike_noValue ac ag ?_)
    rintro c r ⟨⟩; decide

theorem Stop.nil : Stop [] := ⟨by simp, NoEq.nil⟩

theorem ValueGood.runNil {v : Ast .value} {t : Input} (h : ValueGood v t) : valueLike true true t = .ok [] v := by
  have := h.run true true [] [] Blank.nil Stop.nil.value ⟨fun _ => rfl, fun _ => rfl, fun _ => Stop.nil⟩ rfl
  simpa using this

theorem ValueGood.noArrow {v : Ast .value} {t : Input} (h : ValueGood v t) (r u : Input) : t ++ r ≠ '-' :: '>' :: u := by
  obtain ⟨c, x, rfl, -⟩ := h.head
  intro e
  simp only [List.cons_append, List.cons.injEq] at e
  obtain ⟨rfl, e⟩ := e
  have hr := h.runNil
  cases x with
  | nil =>
    have := valueLike_sign true true (c := '-') (sp := []) (s := []) (Or.inr rfl) Blank.nil Stop.nil.value
    simp only [List.append_nil] at this
    rw [this] at hr; cases hr
  | cons d x =>
    simp only [List.cons_append, List.cons.injEq] at e
    obtain ⟨rfl, -⟩ := e
    rw [valueLike_arrow] at hr; cases hr

/-! ## Names before what follows values -/

/-- After parameters, the rest of a signature can be read, and no scope follows. -/
def SigRest (s : Input) : Prop :=
  ∃ m y z w w' cv ref o o', P.space0 s = .ok m () ∧ spaced parseCv m = .ok y cv ∧ spaced parseReference y = .ok z ref ∧
    P.opt (spaced (noexceptQ grammar)) z = .ok w o ∧ P.opt (trailingReturn grammar) w = .ok w' o' ∧ noColons w'

theorem scopeEnd_call {l : Ast (.list .ty) × Bool} {s s' : Input} (h0 : ∃ u, s = '(' :: u) (h : parameterSet grammar s = .ok s' l)
    (hs : SigRest s') : scopeEnd grammar s = .err := by
  obtain ⟨m, y, z, w, w', cv, ref, o, o', h1, h2, h3, h4, h5, r, k, h6, h7⟩ := hs
  rw [scopeEnd]
  refine bind_step (opt_some (a := .sig none l.1 l.2 cv ref (o.getD .nxNone) (Ast.ofOption o')) ?_) (bind_step h6 (bind_err h7))
  rw [functionSignature]
  refine bind_step (r := s) (a := none) (opt_none ?_) ?_
  · obtain ⟨u, rfl⟩ := h0
    exact bind_err (tag_err_head (c := '[') (cs := "abi:".toList) (by decide +kernel) (by simp))
  · exact bind_step (bind_step h (bind_step h1 rfl)) (bind_step h2 (bind_step h3 (bind_step h4 (bind_step h5 rfl))))

theorem noexceptQ_err {s : Input} (h : word s ≠ "noexcept".toList) : noexceptQ grammar s = .err :=
  bind_err (keyword_err noexceptWord h)

theorem SigRest.of {b s : Input} (hb : Blank b) (hs : NoSp s) (hid : idHead s = false) (ha : s.head? ≠ some '&')
    (h : ∃ w o, P.opt (trailingReturn grammar) s = .ok w o ∧ noColons w) : SigRest (b ++ s) := by
  obtain ⟨w, o, h1, h2⟩ := h
  refine ⟨s, s, s, s, w, _, _, _, o, space0_run hb hs, spaced_run (b := []) (cv_none_run (keywords_noId cvTable_start hid)) Blank.nil hs,
    spaced_run (b := []) (reference_none ha) Blank.nil hs, opt_none (spaced_err (noexceptQ_err ?_)), h1, h2⟩
  rw [word_nil hid]; decide +kernel

theorem trailingReturn_err {s : Input} (h : ∀ u, s ≠ '-' :: '>' :: u) : trailingReturn grammar s = .err := by
  have e : "->".toList = ['-', '>'] := by decide +kernel
  refine bind_err (tag_err fun r h' => h r ?_)
  rw [h', e]; rfl

theorem SigRest.head {b : Input} {c : Char} {s : Input} (hb : Blank b) (h1 : P.isSpace c = false) (h2 : isIdCont c = false)
    (h3 : c ≠ '&') (h4 : c ≠ ':') (h5 : c = '-' → ∀ u, s ≠ '>' :: u) : SigRest (b ++ c :: s) := by
  refine SigRest.of hb (NoSp.cons h1) h2 (by rintro ⟨⟩; exact h3 rfl) ⟨c :: s, none, opt_none (trailingReturn_err ?_), ?_⟩
  · intro u e
    simp only [List.cons.injEq] at e
    exact h5 e.1 u e.2
  · exact noColons_head (b := []) Blank.nil h1 h2 h3 h4

/-- What may follow `&` or `&&`. -/
structure AmpEnd (z : Input) : Prop where
  noSp : NoSp z
  cv : keywords cvTable z = .err
  nx : word z ≠ "noexcept".toList
  amp : z.head? ≠ some '&'
  colon : z.head? ≠ some ':'
  arrow : ∀ u, z ≠ '-' :: '>' :: u

theorem AmpEnd.blankAmp {c z : Input} (h : AmpEnd z) (hc : Blank c) : (c ++ z).head? ≠ some '&' := by
  cases c with
  | nil => exact h.amp
  | cons x c => exact blank_head hc (by simp) (by decide)

theorem AmpEnd.noColons {c z : Input} (h : AmpEnd z) (hc : Blank c) : noColons (c ++ z) :=
  noColons_of hc h.noSp (cvOrRef_err h.cv h.amp) fun _ => colon_tag h.colon

theorem ref_head {r : Ref} (hr : r ≠ .none) : ∃ u, r.show = '&' :: u := by
  cases r with
  | none => exact absurd rfl hr
  | lvalue => exact ⟨[], by decide +kernel⟩
  | rvalue => exact ⟨['&'], by decide +kernel⟩

theorem amp_noColons {b c z : Input} {r : Ref} (hb : Blank b) (hr : r ≠ .none) (hc : Blank c) (h : AmpEnd z) :
    noColons (b ++ (r.show ++ (c ++ z))) := by
  obtain ⟨r', k, h1, h2⟩ := h.noColons hc
  obtain ⟨u, hu⟩ := ref_head hr
  refine ⟨r', () :: k, many0_step (r := c ++ z) (a := ()) ?_ ?_ h1, h2⟩
  · refine bind_step (space0_run hb ?_) ?_
    · rw [hu]; exact NoSp.cons (by decide)
    · rw [cvOrRef]
      refine or_r (bind_err (verify_err (cv_none_run (keywords_noId cvTable_start ?_)) (by decide)))
        (bind_step (verify_run (reference_run (h.blankAmp hc)) (by simpa using hr)) rfl)
      rw [hu]; rfl
  · rw [hu]; simp only [List.length_append, List.length_cons]; omega

theorem amp_sigRest {b c z : Input} {r : Ref} (hb : Blank b) (hr : r ≠ .none) (hc : Blank c) (h : AmpEnd z) :
    SigRest (b ++ (r.show ++ (c ++ z))) := by
  obtain ⟨u, hu⟩ := ref_head hr
  have hns : NoSp (r.show ++ (c ++ z)) := by rw [hu]; exact NoSp.cons (by decide)
  have hid : idHead (r.show ++ (c ++ z)) = false := by rw [hu]; rfl
  exact ⟨_, _, z, z, z, _, r, none, none, space0_run hb hns, spaced_run (b := []) (cv_none_run (keywords_noId cvTable_start hid)) Blank.nil hns,
    spaced_run (b := c) (reference_run (h.blankAmp hc)) hc h.noSp, opt_none (spaced_err (noexceptQ_err h.nx)),
    opt_none (trailingReturn_err h.arrow), h.noColons (c := []) Blank.nil⟩

/-- A value after `&`. -/
theorem ValueGood.ampEnd {v : Ast .value} {t : Input} (h : ValueGood v t) (ha : ∀ c u, t = c :: u → c ≠ '&' ∧ c ≠ ':')
    {r : Input} (hr : idHead r = false) : AmpEnd (t ++ r) := by
  obtain ⟨c, u, hcu, hc, -⟩ := h.head
  have hw := h.words r hr
  refine ⟨h.noSp r, ?_, hw "noexcept" (by decide +kernel), ?_, ?_, h.noArrow r⟩
  · refine keywords_err cvTable_good fun e he => hw e.1 ?_
    revert e; decide +kernel
  · rw [hcu]; rintro ⟨⟩; exact (ha _ _ hcu).1 rfl
  · rw [hcu]; rintro ⟨⟩; exact (ha _ _ hcu).2 rfl

theorem scopeEnd_head {b : Input} {c : Char} {s : Input} (hb : Blank b) (h1 : P.isSpace c = false) (h2 : isIdCont c = false)
    (h3 : c ≠ '&') (h4 : c ≠ ':') (h5 : b = [] → functionSignature grammar (c :: s) = .err) : scopeEnd grammar (b ++ c :: s) = .err := by
  refine scopeEnd_none ?_ (noColons_head hb h1 h2 h3 h4)
  cases b with
  | nil => exact h5 rfl
  | cons x b => exact blank_noSig hb (by simp)

/-! ## What the induction proves -/

/-- The start of what follows a value. -/
structure TrailHead (l : Ast (.list .after)) (b : Input) (c : Char) (u : Input) : Prop where
  blank : Blank b
  space : P.isSpace c = false
  id : isIdCont c = false
  quote : c ≠ '\''
  eq : c = '=' ∨ c = '>' → b ≠ []
  less : c = '<' → l.firstOp ≠ some (.basic .less false false) → ∃ d u', u = d :: u' ∧ (d = '=' ∨ d = '<')
  ender : l.endsType = true → c ∈ typeEnders

/-- A value after `->` is known to be readable as a type, or not to be. -/
def ArrowOk (l : Ast (.list .after)) : Prop :=
  ∀ v, l.firstArrow = some v → v.notType = true ∨ ∃ a : Ast .ty, AsType v a

structure TrailersGood (l : Ast (.list .after)) (tl : Input) : Prop where
  nil : l = .nil → tl = []
  head : l ≠ .nil → ∃ b c u, tl = b ++ c :: u ∧ TrailHead l b c u
  run : ∀ ac ag sp rest, Blank sp → VStop rest → Fits l ac ag rest → binaryExprMiddle ac ag rest = .err →
    P.many0 (do P.space0; afterValue grammar ac ag) (tl ++ (sp ++ rest)) = .ok (sp ++ rest) l.items
  name : NameFollow l → ∀ sp rest, Blank sp → VStop rest → (l.outer isArrow = true → Stop rest) →
    scopeEnd grammar (tl ++ (sp ++ rest)) = .err
  sig : ArrowOk l → ∀ sp rest, Blank sp → VStop rest → (l.outer isArrow = true → Stop rest) →
    SigRest (tl ++ (sp ++ rest))
  cast : l.noCast = true → ∀ sp rest, Blank sp → VStop rest → ∃ b z, tl ++ (sp ++ rest) = b ++ z ∧ Blank b ∧ NoSp z ∧
    ∀ ac ag, valueLike ac ag z = .err
  asDecl : ∀ a p, l = .cons (.aCall a) .nil → AsType a p → ∃ b t, tl = b ++ '(' :: t ∧ Blank b ∧
    DeclsGood (.cons (.dFun (.sig none p false CV.none .none .nxNone .none)) .nil) ('(' :: t)

theorem after_call (ac ag : Bool) (s : Input) : afterValue grammar ac ag ('(' :: s) =
    (do let a ← functionCall grammar; pure (.aCall a) : P (Ast .after)) ('(' :: s) := rfl

theorem after_ternary (ac ag : Bool) (s : Input) : afterValue grammar ac ag ('?' :: s) = ternaryOp grammar ac ag ('?' :: s) := rfl

theorem after_dot (ac ag : Bool) (s : Input) : afterValue grammar ac ag ('.' :: s) =
    P.or (memberAccess grammar) (do P.tag "..."; pure .aEllipsis) ('.' :: s) := rfl

theorem after_index (ac ag : Bool) (s : Input) : afterValue grammar ac ag ('[' :: s) = arrayIndex grammar ('[' :: s) := rfl

theorem after_other (ac ag : Bool) {s : Input} (h : ∀ d ∈ ['(', '?', '.', '['], s.head? ≠ some d) : afterValue grammar ac ag s =
    P.or (binaryOp grammar ac ag) (do let o ← incDec; pure (.aPostfix (.arith o))) s := by
  rw [afterValue, P.byHead]
  simp only [h '(' (by simp), h '?' (by simp), h '.' (by simp), h '[' (by simp), if_false]

theorem after_end {ac ag : Bool} {sp rest : Input} (hsp : Blank sp) (h : VStop rest) (hb : binaryExprMiddle ac ag rest = .err) :
    P.many0 (do P.space0; afterValue grammar ac ag) (sp ++ rest) = .ok (sp ++ rest) [] := by
  refine many0_err (bind_step (space0_run hsp h.noSp) ?_)
  rw [after_other ac ag fun d hd => h.ne (by revert d; decide)]
  refine or_err (bind_err hb) (bind_err (incDec_err ?_ ?_))
  · rintro r rfl; exact h.ne (d := '+') (by decide) rfl
  · rintro r rfl; exact h.ne (d := '-') (by decide) rfl

theorem trailNil_good : TrailersGood .nil [] := by
  refine ⟨fun _ => rfl, fun h => absurd rfl h, fun ac ag sp rest hsp hr hf hb => by
      simp only [Ast.items, List.nil_append]; exact after_end hsp hr hb,
    fun _ sp rest hsp hr _ => (hr.nameEnd hsp).noScope, fun _ sp rest hsp hr _ => ?_, fun _ sp rest hsp hr => ?_,
    fun a p e => (nomatch e)⟩
  · rw [List.nil_append]
    refine SigRest.of hsp hr.noSp hr.noId (hr.ne (by decide)) ⟨rest, none, opt_none (trailingReturn_err ?_), hr.noColons' (sp := []) Blank.nil⟩
    rintro u rfl; exact hr.ne (d := '-') (by decide) rfl
  · exact ⟨sp, rest, rfl, hsp, hr.noSp, fun ac ag => hr.noValue' ac ag⟩

theorem TrailersGood.noId {l : Ast (.list .after)} {tl : Input} (h : TrailersGood l tl) {r : Input} (hr : idHead r = false) :
    idHead (tl ++ r) = false := by
  by_cases hl : l = .nil
  · rw [h.nil hl]; exact hr
  · obtain ⟨b, c, u, rfl, hh⟩ := h.head hl
    rw [List.append_assoc]
    exact blank_idHead hh.blank fun _ => hh.id

theorem TrailersGood.quote {l : Ast (.list .after)} {tl : Input} (h : TrailersGood l tl) {r : Input} (hr : r.head? ≠ some '\'') :
    (tl ++ r).head? ≠ some '\'' := by
  by_cases hl : l = .nil
  · rw [h.nil hl]; exact hr
  · obtain ⟨b, c, u, rfl, hh⟩ := h.head hl
    cases b with
    | nil => rintro ⟨⟩; exact hh.quote rfl
    | cons x b =>
      rw [List.append_assoc]; exact blank_head hh.blank (by simp) (by decide)

theorem TrailersGood.uid {l : Ast (.list .after)} {tl : Input} (h : TrailersGood l tl)
    (hf : l.firstOp ≠ some (.basic .less false false)) {sp rest : Input} (hsp : Blank sp) (hr : VStop rest) :
    UidEnd (tl ++ (sp ++ rest)) := by
  by_cases hl : l = .nil
  · rw [h.nil hl]; exact hr.uidEnd hsp
  · refine ⟨h.noId (hr.blank_noId hsp), ?_, ?_⟩
    · obtain ⟨b, c, u, rfl, hh⟩ := h.head hl
      simp only [List.append_assoc, List.cons_append]
      refine bind_step (space0_run hh.blank (NoSp.cons hh.space)) ?_
      refine bind_step (cv_none_run (keywords_noId cvTable_start (s := c :: _) hh.id)) ?_
      by_cases hc : c = '<'
      · obtain ⟨d, u', rfl, hd⟩ := hh.less hc hf
        subst hc
        refine templateParameters_noValue (b := []) (s := d :: _) Blank.nil ?_ ?_ ?_
        · rintro c r ⟨⟩; rcases hd with rfl | rfl <;> decide
        · rintro ⟨⟩; rcases hd with hd | hd <;> cases hd
        · intro r e
          have e2 : ", void>".toList = ',' :: " void>".toList := by decide +kernel
          rw [e2] at e
          simp only [List.cons_append, List.cons.injEq] at e
          rcases hd with rfl | rfl <;> exact absurd e.1 (by decide)
      · exact templateParameters_err (by rintro ⟨⟩; exact hc rfl)
    · obtain ⟨b, c, u, rfl, hh⟩ := h.head hl
      simp only [List.append_assoc, List.cons_append]
      by_cases hc : c = '=' ∨ c = '>'
      · have := hh.eq hc
        cases b with
        | nil => exact absurd rfl this
        | cons x b =>
          have hx := hh.blank x (by simp)
          refine NoEq.other ?_ ?_ <;> (rintro rfl; revert hx; decide)
      · simp only [not_or] at hc
        exact NoEq.blank hh.blank (NoEq.other hc.2 hc.1)

theorem TrailersGood.nameEnd {l : Ast (.list .after)} {tl : Input} (h : TrailersGood l tl) (hf : NameFollow l)
    {sp rest : Input} (hsp : Blank sp) (hr : VStop rest) (ha : l.outer isArrow = true → Stop rest) :
    NameEnd (tl ++ (sp ++ rest)) := ⟨h.uid hf.1 hsp hr, h.name hf sp rest hsp hr ha⟩

theorem Fits.tail {a : Ast .after} {l : Ast (.list .after)} {ac ag : Bool} {rest : Input} (h : Fits (.cons a l) ac ag rest) :
    Fits l ac ag rest := by
  refine ⟨fun e => h.comma ?_, fun e => h.greater ?_, fun e => h.arrow ?_⟩ <;> simp [Ast.outer, e]

/-- One thing after a value, then others. -/
theorem trail_of {a : Ast .after} {l : Ast (.list .after)} {b : Input} {c : Char} {u : Input}
    (hh : TrailHead (.cons a l) b c u)
    (hrun : ∀ ac ag sp rest, Blank sp → VStop rest → Fits (.cons a l) ac ag rest → binaryExprMiddle ac ag rest = .err →
      ∃ y, afterValue grammar ac ag (c :: (u ++ (sp ++ rest))) = .ok y a ∧ y.length ≤ (u ++ (sp ++ rest)).length ∧
        P.many0 (do P.space0; afterValue grammar ac ag) y = .ok (sp ++ rest) l.items)
    (hname : NameFollow (.cons a l) → ∀ sp rest, Blank sp → VStop rest → ((Ast.cons a l).outer isArrow = true → Stop rest) →
      scopeEnd grammar (b ++ c :: (u ++ (sp ++ rest))) = .err)
    (hsig : ArrowOk (.cons a l) → ∀ sp rest, Blank sp → VStop rest → ((Ast.cons a l).outer isArrow = true → Stop rest) →
      SigRest (b ++ c :: (u ++ (sp ++ rest))))
    (hcast : (Ast.cons a l).noCast = true → ∀ r ac ag, valueLike ac ag (c :: (u ++ r)) = .err)
    (hdecl : ∀ x p, a = .aCall x → l = .nil → AsType x p → c = '(' ∧
      DeclsGood (.cons (.dFun (.sig none p false CV.none .none .nxNone .none)) .nil) ('(' :: u)) :
    TrailersGood (.cons a l) (b ++ c :: u) := by
  have et : ∀ r, b ++ c :: u ++ r = b ++ c :: (u ++ r) := by
    intro r; simp only [List.append_assoc, List.cons_append]
  refine ⟨fun e => (nomatch e), fun _ => ⟨b, c, u, rfl, hh⟩, fun ac ag sp rest hsp hr hf hb => ?_, fun hn sp rest hsp hr ha => ?_,
    fun hn sp rest hsp hr ha => ?_, fun hn sp rest hsp hr => ?_, fun x p e hx => ?_⟩
  · obtain ⟨y, h1, h2, h3⟩ := hrun ac ag sp rest hsp hr hf hb
    rw [et]
    simp only [Ast.items]
    refine many0_step (bind_step (space0_run hh.blank (NoSp.cons hh.space)) h1) ?_ h3
    simp only [List.length_append, List.length_cons] at h2 ⊢; omega
  · rw [et]; exact hname hn sp rest hsp hr ha
  · rw [et]; exact hsig hn sp rest hsp hr ha
  · exact ⟨b, c :: (u ++ (sp ++ rest)), et _, hh.blank, NoSp.cons hh.space, fun ac ag => hcast hn _ ac ag⟩
  · simp only [Ast.cons.injEq] at e
    obtain ⟨rfl, h2⟩ := hdecl x p e.1 e.2 hx
    exact ⟨b, u, rfl, hh.blank, h2⟩

theorem noValue_cons {c : Char} (h : c ∈ noValue) (s : Input) (ac ag : Bool) : valueLike ac ag (c :: s) = .err :=
  valueLike_noValue ac ag (by rintro d r ⟨⟩; exact h)

/-! ## Calls, indices, members, ellipses -/

theorem trailCall_good {a : Ast (.list .value)} {b t : Input} {l : Ast (.list .after)} {tl : Input} (hb : Blank b)
    (h : ArgsGood a t) (hl : TrailersGood l tl) : TrailersGood (.cons (.aCall a) l) (b ++ t ++ tl) := by
  obtain ⟨u, rfl⟩ := h.paren
  have e0 : b ++ '(' :: u ++ tl = b ++ '(' :: (u ++ tl) := by simp only [List.append_assoc, List.cons_append]
  have et : ∀ r, '(' :: (u ++ tl ++ r) = '(' :: u ++ (tl ++ r) := by
    intro r; simp only [List.append_assoc, List.cons_append]
  rw [e0]
  refine trail_of ⟨hb, by decide, by decide, by decide, by simp, by simp, fun e => (nomatch e)⟩ ?_ ?_ ?_ (fun e => (nomatch e)) ?_
  · intro ac ag sp rest hsp hr hf hbin
    refine ⟨tl ++ (sp ++ rest), ?_, ?_, hl.run ac ag sp rest hsp hr hf.tail hbin⟩
    · rw [after_call, et]
      exact bind_step (h.run _) rfl
    · simp only [List.length_append]; omega
  · intro hn sp rest hsp hr ha
    by_cases hbe : b = []
    · subst hbe
      rcases hn.2.1 a rfl with hr' | ⟨p, hp⟩
      · refine scopeEnd_head (b := []) Blank.nil (by decide) (by decide) (by decide) (by decide) fun _ => ?_
        rw [functionSignature]
        refine bind_step (opt_none (bind_err (tag_err_head (c := '[') (cs := "abi:".toList) (by decide +kernel) (by simp)))) ?_
        rw [et]
        exact bind_err (spaced_err (h.refused hr' _))
      · have hs := hl.sig hn.2.2 sp rest hsp hr fun e => ha (by simp [Ast.outer, e])
        rw [List.nil_append, et]
        exact scopeEnd_call ⟨_, rfl⟩ (h.params p hp _) hs
    · exact scopeEnd_head hb (by decide) (by decide) (by decide) (by decide) fun e => absurd e hbe
  · intro hn sp rest hsp hr ha
    exact SigRest.head hb (by decide) (by decide) (by decide) (by decide) (by simp)
  · rintro x p e rfl hx
    simp only [Ast.aCall.injEq] at e
    subst e
    refine ⟨rfl, ?_⟩
    rw [hl.nil rfl, List.append_nil]
    have hq : SigQuals CV.none .none [] :=
      ⟨[], [], [], ⟨[], by simp, Words.nil, rfl⟩, Blank.nil, Blank.nil, fun _ => rfl, fun _ => rfl, rfl⟩
    have hs := sig_of (abi := none) (p := u) (variadic := false) (by simp) hq nxNone_good trNone_good fun s => h.params p hx s
    simp only [abiText, List.nil_append, List.append_nil] at hs
    have := declCons_good (dFun_good hs) Blank.nil declNil_good rfl (fun _ => rfl) (by simp [idHead]) (by simp [Ast.len])
    simpa only [List.append_nil] using this

theorem trailIndex_good {v : Ast .value} {b c t c' : Input} {l : Ast (.list .after)} {tl : Input} (hb : Blank b) (hc : Blank c)
    (h : ValueGood v t) (hv : v.outer isComma = false) (hc' : Blank c') (hl : TrailersGood l tl) :
    TrailersGood (.cons (.aIndex v) l) (b ++ '[' :: c ++ t ++ c' ++ ']' :: tl) := by
  have e0 : b ++ '[' :: c ++ t ++ c' ++ ']' :: tl = b ++ '[' :: (c ++ (t ++ (c' ++ ']' :: tl))) := by
    simp only [List.append_assoc, List.cons_append]
  have et : ∀ r, '[' :: (c ++ (t ++ (c' ++ ']' :: tl)) ++ r) = '[' :: (c ++ (t ++ (c' ++ ']' :: (tl ++ r)))) := by
    intro r; simp only [List.append_assoc, List.cons_append]
  have hs : ∀ r, Stop (']' :: r) := fun r => Stop.close (Or.inr rfl)
  rw [e0]
  refine trail_of ⟨hb, by decide, by decide, by decide, by simp, by simp, fun e => (nomatch e)⟩ ?_ ?_ ?_ ?_ (by simp)
  · intro ac ag sp rest hsp hr hf hbin
    refine ⟨tl ++ (sp ++ rest), ?_, ?_, hl.run ac ag sp rest hsp hr hf.tail hbin⟩
    · rw [after_index, et, arrayIndex, gVal]
      refine bind_step (charSp_run hc (h.noSp _)) ?_
      refine bind_step (h.run false true c' _ hc' (hs _).value (.stop hv (hs _)) (binary_close (Or.inr rfl))) ?_
      exact bind_step (spChar_run hc' (by decide)) rfl
    · simp only [List.length_append, List.length_cons]; omega
  · intro hn sp rest hsp hr ha
    refine scopeEnd_head hb (by decide) (by decide) (by decide) (by decide) fun _ => ?_
    rw [et]
    exact noSig_bracket (h.abi_blank hv hc hc' _)
  · intro hn sp rest hsp hr ha
    exact SigRest.head hb (by decide) (by decide) (by decide) (by decide) (by simp)
  · intro _ r ac ag
    exact noValue_cons (by decide) _ ac ag

theorem trailMember_good {u : Ast .uid} {b c t : Input} {l : Ast (.list .after)} {tl : Input} (hb : Blank b) (hc : Blank c)
    (h : UidGood u t) (ho : u.uidOp = false) (hcv : u.uidConv = false) (hl : TrailersGood l tl)
    (hf : l.firstOp ≠ some (.basic .less false false)) : TrailersGood (.cons (.aMember u) l) (b ++ '.' :: c ++ t ++ tl) := by
  have e0 : b ++ '.' :: c ++ t ++ tl = b ++ '.' :: (c ++ (t ++ tl)) := by simp only [List.append_assoc, List.cons_append]
  have et : ∀ r, '.' :: (c ++ (t ++ tl) ++ r) = '.' :: (c ++ (t ++ (tl ++ r))) := by
    intro r; simp only [List.append_assoc, List.cons_append]
  rw [e0]
  refine trail_of ⟨hb, by decide, by decide, by decide, by simp, by simp, fun _ => by decide⟩ ?_ ?_ ?_ ?_ (by simp)
  · intro ac ag sp rest hsp hr hfit hbin
    refine ⟨tl ++ (sp ++ rest), ?_, ?_, hl.run ac ag sp rest hsp hr hfit.tail hbin⟩
    · rw [after_dot]
      rw [et]
      refine or_l ?_
      rw [memberAccess]
      refine bind_step (charSp_run hc (h.starts _ (hl.noId (hr.blank_noId hsp))).noSp) ?_
      exact bind_step (h.run hcv _ (hl.uid hf hsp hr) (by rw [ho]; intro e; cases e)) rfl
    · simp only [List.length_append]; omega
  · intro hn sp rest hsp hr ha
    exact scopeEnd_head hb (by decide) (by decide) (by decide) (by decide) fun _ => sig_err_head (by decide) (by decide)
  · intro hn sp rest hsp hr ha
    exact SigRest.head hb (by decide) (by decide) (by decide) (by decide) (by simp)
  · intro _ r ac ag
    rw [et]
    refine valueLike_dot ac ag fun r' e => ?_
    cases c with
    | nil =>
      obtain ⟨d, x, hd, -⟩ := h.head
      have := (h.starts [] rfl).char
      rw [List.append_nil] at this
      obtain ⟨d', x', hd', -, -, h3⟩ := this
      rw [hd'] at e
      simp only [List.nil_append, List.cons_append, List.cons.injEq] at e
      rw [e.1] at h3; exact h3 (by simp)
    | cons x c => exact blank_head (s := t ++ (tl ++ r)) hc (by simp) (c := '.') (by decide) (by rw [e]; rfl)

theorem trailEllipsis_good {b : Input} {l : Ast (.list .after)} {tl : Input} (hb : Blank b) (hl : TrailersGood l tl) :
    TrailersGood (.cons .aEllipsis l) (b ++ "...".toList ++ tl) := by
  have e3 : "...".toList = ['.', '.', '.'] := by decide +kernel
  have e0 : b ++ "...".toList ++ tl = b ++ '.' :: ('.' :: '.' :: tl) := by
    rw [e3]; simp only [List.append_assoc, List.cons_append, List.nil_append]
  rw [e0]
  refine trail_of ⟨hb, by decide, by decide, by decide, by simp, by simp, fun _ => by decide⟩ ?_ ?_ ?_ (fun e => (nomatch e)) (by simp)
  · intro ac ag sp rest hsp hr hfit hbin
    refine ⟨tl ++ (sp ++ rest), ?_, ?_, hl.run ac ag sp rest hsp hr hfit.tail hbin⟩
    · rw [after_dot]
      refine or_r ?_ ?_
      · rw [memberAccess]
        refine bind_step (charSp_run (b := []) Blank.nil (NoSp.cons (by decide))) (bind_err (unqualifiedId_bad ?_))
        exact badHead_cons (by decide) (by decide) (by decide)
      · have := tag_run "..." (tl ++ (sp ++ rest))
        rw [e3] at this
        exact bind_step this rfl
    · simp only [List.length_append, List.length_cons]; omega
  · intro hn sp rest hsp hr ha
    exact scopeEnd_head hb (by decide) (by decide) (by decide) (by decide) fun _ => sig_err_head (by decide) (by decide)
  · intro hn sp rest hsp hr ha
    exact SigRest.head hb (by decide) (by decide) (by decide) (by decide) (by simp)

end Verif.Cpp
