/-
C63: declarators read back what they spell, when their parts do.
-/
import Verif.Cpp.SpellingTypes

set_option autoImplicit false
set_option linter.unusedVariables false
set_option linter.unusedSimpArgs false

namespace Verif.Cpp

/-- What may follow a value. -/
structure VStop (s : Input) : Prop where
  head : ∀ c r, s = c :: r → c ∈ ':' :: stops
  noEq : NoEq s
  noColons : ∀ r, s ≠ ':' :: ':' :: r

theorem Stop.value {s : Input} (h : Stop s) : VStop s := by
  refine ⟨fun c r e => List.mem_cons_of_mem _ (h.head c r e), h.noEq, ?_⟩
  rintro r rfl
  exact absurd (h.head _ _ rfl) (by decide)

/-- Operators that are not between brackets are allowed by the context. -/
structure Fits {s : S} (a : Ast s) (ac ag : Bool) (rest : Input) : Prop where
  comma : a.outer isComma = true → ac = true
  greater : a.outer isGreater = true → ag = true
  arrow : a.outer isArrow = true → Stop rest

theorem Fits.stop {s : S} {a : Ast s} {rest : Input} (h : a.outer isComma = false) (hr : Stop rest) :
    Fits a false true rest :=
  ⟨fun e => (by rw [h] at e; cases e), fun _ => rfl, fun _ => hr⟩

/-- The text is not read as a type, or only up to a character that does not follow types. -/
def TypeStops (s : Input) : Prop :=
  typeLike s = .err ∨ ∃ b c u a, typeLike s = .ok (b ++ c :: u) a ∧ Blank b ∧ c ∈ typeEnders

theorem typeEnders_facts {c : Char} (h : c ∈ typeEnders) : P.isSpace c = false ∧ isIdCont c = false ∧
    c ∉ [')', ',', '>', ':', '(', '[', '&', '<', '*', '{', '~', ']', '#'] := by
  simp only [typeEnders, List.mem_cons, List.not_mem_nil, or_false] at h
  rcases h with rfl | rfl | rfl | rfl | rfl | rfl | rfl | rfl | rfl | rfl | rfl <;> decide

structure ValueGood (v : Ast .value) (t : Input) : Prop where
  head : ∃ c u, t = c :: u ∧ P.isSpace c = false ∧ c ∉ [',', '=', '<', '>', ')', ']']
  dot : v.dots = false → ∀ u, t ≠ '.' :: u
  words : ∀ r, idHead r = false → ∀ w ∈ hardReserved, word (t ++ r) ≠ w.toList
  abi : v.outer isComma = false → ∀ b' r, Blank b' → abiTag ('[' :: (t ++ (b' ++ ']' :: r))) = .err
  notType : v.notType = true → ∀ sp rest, Blank sp → VStop rest → (v.outer isArrow = true → Stop rest) →
    TypeStops (t ++ (sp ++ rest))
  run : ∀ ac ag sp rest, Blank sp → VStop rest → Fits v ac ag rest → binaryExprMiddle ac ag rest = .err →
    valueLike ac ag (t ++ (sp ++ rest)) = .ok (sp ++ rest) v
  asTy : ∀ a : Ast .ty, AsType v a → TyGood a t ∧ a.tyOp = false

theorem ValueGood.noSp {v : Ast .value} {t : Input} (h : ValueGood v t) (r : Input) : NoSp (t ++ r) := by
  obtain ⟨c, u, rfl, hc, -⟩ := h.head
  exact NoSp.cons hc

/-- What may follow a declarator operator. -/
structure DEnd (k : DKind) (sp rest : Input) : Prop where
  noSp : NoSp rest
  noId : idHead rest = true → sp ≠ []
  noAngle : rest.head? ≠ some '<'
  cv : k = .cv ∨ k = .ptr → keywords cvTable rest = .err
  restrict : k = .ptr → keywords restrictTable rest = .err
  amp : k = .ref → rest.head? ≠ some '&'
  fn : k = .fn → Stop rest

theorem DEnd.stop (k : DKind) (sp : Input) {rest : Input} (h : Stop rest) : DEnd k sp rest :=
  ⟨h.noSp, fun h' => absurd h' (by rw [h.noId]; simp), h.ne (by decide), fun _ => h.noKeyword cvTable_start,
    fun _ => h.noKeyword restrictTable_start, fun _ => h.ne (by decide), fun _ => h⟩

theorem DEnd.id {k : DKind} {sp rest : Input} (h : DEnd k sp rest) (hsp : Blank sp) :
    idHead (sp ++ rest) = false := by
  refine blank_idHead hsp fun e => ?_
  cases hx : idHead rest with
  | false => rfl
  | true => exact absurd e (h.noId hx)

structure DeclopGood (d : Ast .declop) (t : Input) : Prop where
  head : ∃ c u, t = c :: u ∧ P.isSpace c = false ∧ c ∉ [':', '<', '>', '=', '\'', '.', ')']
  amp : d.kind ≠ .ref → ∀ u, t ≠ '&' :: u
  words : ∀ r, idHead r = false → keywords legacyTable (t ++ r) = .err ∧
    keywords restrictTable (t ++ r) = .err ∧ (d.kind ≠ .cv → keywords cvTable (t ++ r) = .err)
  run : ∀ sp rest, Blank sp → DEnd d.kind sp rest →
    spaced (declOperator grammar) (t ++ (sp ++ rest)) = .ok rest d
  sig : ∀ sp rest, Blank sp → DEnd d.kind sp rest →
    (d.kind = .fn ∧ ∃ sg, functionSignature grammar (t ++ (sp ++ rest)) = .ok rest sg) ∨
    (d.kind ≠ .fn ∧ functionSignature grammar (t ++ (sp ++ rest)) = .err)
  cvSkip : d.kind = .cv → ∀ sp rest, Blank sp → DEnd d.kind sp rest →
    parseCv (t ++ (sp ++ rest)) = .ok rest (match d with | .dCv cv => cv | _ => CV.none) ∧
    cvOrRef (t ++ (sp ++ rest)) = .ok rest ()
  refSkip : d.kind = .ref → ∀ sp rest, Blank sp → DEnd d.kind sp rest →
    cvOrRef (t ++ (sp ++ rest)) = .ok (sp ++ rest) ()
  opEnd : d.kind = .fn → ∀ r, OpEnd (t ++ r)
  notType : d.kind = .ptr ∨ d.kind = .ref → ∀ r, typeLike (t ++ r) = .err

theorem DeclopGood.noSp {d : Ast .declop} {t : Input} (h : DeclopGood d t) (r : Input) : NoSp (t ++ r) := by
  obtain ⟨c, u, rfl, hc, -⟩ := h.head
  exact NoSp.cons hc

/-! ## Sequences -/

theorem declNil_good : DeclsGood .nil [] := by
  refine ⟨fun _ => rfl, by simp [Ast.len], fun h => absurd rfl h, by simp, fun h => absurd rfl h,
    fun sp rest hsp hrest hn => ?_, fun sp0 sp rest h0 hsp hrest => ?_, fun sp rest hsp hrest => Or.inl ?_,
    fun h => absurd rfl h, fun _ sp rest hsp hrest hn => ?_, by simp [Ast.first]⟩
  · rw [hn rfl]
    simp only [List.nil_append]
    rw [many0_err]
    · simp only [Ast.items]
    refine spaced_err ?_
    rw [declOperator, P.byHead]
    have h : ∀ d, d ∉ stops → rest.head? ≠ some d := fun d hd => hrest.ne hd
    simp only [h '&' (by decide), h '*' (by decide), h '(' (by decide), h '[' (by decide), h '_' (by decide),
      h 'c' (by decide), h 'v' (by decide), or_self, if_false]
    exact memberPointer_bad hrest.bad (h '*' (by decide))
  · refine ⟨sp0 ++ (sp ++ rest), [], ?_, ?_⟩
    · rw [List.nil_append, ← List.append_assoc]
      refine many0_err (skip_err (h0.append hsp) hrest.noSp (cvOrRef_err ?_ (hrest.ne (by decide))))
      exact hrest.noKeyword cvTable_start
    · exact blank_noColon h0 (blank_noColon hsp (hrest.ne (by decide)))
  · rw [List.nil_append]
    cases sp with
    | nil =>
      apply functionSignature_err
      · rintro u rfl; exact hrest.ne (d := '(') (by decide) rfl
      · rintro u rfl
        refine hrest.ne (d := '[') (by decide) ?_
        have : "[abi:".toList = '[' :: "abi:".toList := by decide +kernel
        rw [this]; rfl
    | cons c b => exact blank_noSig hsp (by simp)
  · obtain ⟨rfl, h⟩ := hn rfl
    exact h

theorem DeclsGood.dEnd {l : Ast (.list .declop)} {tl : Input} (h : DeclsGood l tl) (hl : l ≠ .nil)
    {k : DKind} (hk : mayFollow k l.first = true) {b sp rest : Input} (hid : idHead tl = true → b ≠ [])
    (hsp : Blank sp) (hrest : Stop rest) : DEnd k b (tl ++ (sp ++ rest)) := by
  have hri := hrest.blank_noId hsp
  obtain ⟨h1, h2, h3⟩ := h.words hl _ hri
  obtain ⟨c, u, hcu, hc1, hc2⟩ := h.head hl
  have hf : ∃ x, l.first = some x := by
    cases l with
    | nil => exact absurd rfl hl
    | cons d l => exact ⟨_, rfl⟩
  obtain ⟨x, hx⟩ := hf
  rw [hx] at hk h3
  refine ⟨h.noSp hl _, fun h' => hid ?_, ?_, fun hk' => h3 ?_, fun _ => h2, fun hk' => ?_, fun hk' => ?_⟩
  · rw [hcu] at h' ⊢; exact h'
  · rw [hcu]
    intro e
    simp only [List.cons_append, List.head?_cons, Option.some.injEq] at e
    rw [e] at hc2; exact hc2 (by simp)
  · rintro ⟨⟩
    rcases hk' with rfl | rfl <;> cases hk
  · have := h.amp (by rw [hx]; rintro ⟨⟩; rw [hk'] at hk; cases hk)
    rw [hcu] at this ⊢
    intro e
    simp only [List.cons_append, List.head?_cons, Option.some.injEq] at e
    exact this u (by rw [e])
  · rw [hk'] at hk; cases hk

theorem declCons_good {d : Ast .declop} {t b : Input} {l : Ast (.list .declop)} {tl : Input}
    (h : DeclopGood d t) (hb : Blank b) (hl : DeclsGood l tl) (hm : mayFollow d.kind l.first = true)
    (hnil : l = .nil → b = []) (hid : idHead tl = true → b ≠ []) (hlen : l.len < 255) :
    DeclsGood (.cons d l) (t ++ b ++ tl) := by
  obtain ⟨c, u, hcu, hc1, hc2⟩ := h.head
  have hbid : ∀ r, idHead r = false → idHead (b ++ (tl ++ r)) = false := by
    intro r hr
    refine blank_idHead hb fun hbe => ?_
    have h1 : idHead tl = false := by
      cases hx : idHead tl with
      | false => rfl
      | true => exact absurd hbe (hid hx)
    cases tl with
    | nil => exact hr
    | cons c u => exact h1
  -- the text after the first operator, as blanks and the rest
  have hsplit : ∀ sp rest, Blank sp → Stop rest → ∃ b' rest', Blank b' ∧ DEnd d.kind b' rest' ∧
      b ++ (tl ++ (sp ++ rest)) = b' ++ rest' ∧
      ((l = .nil ∧ b' = sp ∧ rest' = rest) ∨ (l ≠ .nil ∧ b' = b ∧ rest' = tl ++ (sp ++ rest))) := by
    intro sp rest hsp hrest
    by_cases hn : l = .nil
    · refine ⟨sp, rest, hsp, DEnd.stop _ _ hrest, ?_, Or.inl ⟨hn, rfl, rfl⟩⟩
      rw [hnil hn, hl.nil hn]; rfl
    · exact ⟨b, tl ++ (sp ++ rest), hb, hl.dEnd hn hm hid hsp hrest, rfl, Or.inr ⟨hn, rfl, rfl⟩⟩
  refine ⟨fun e => (nomatch e), by simp only [Ast.len]; omega, fun _ => ?_, fun hk v => ?_, fun _ r hr => ?_,
    fun sp rest hsp hrest _ => ?_, fun sp0 sp rest h0 hsp hrest => ?_, fun sp rest hsp hrest => ?_,
    fun _ sp rest hsp hrest => ?_, fun hk sp rest hsp hrest _ => ?_, fun hk r => ?_⟩
  · exact ⟨c, u ++ (b ++ tl), by rw [hcu]; simp only [List.append_assoc, List.cons_append], hc1, hc2⟩
  · have := h.amp (fun e => hk (by simp [Ast.first, e]))
    rw [hcu] at this ⊢
    intro e
    simp only [List.cons_append, List.cons.injEq] at e
    exact this u (by rw [e.1])
  · simp only [List.append_assoc]
    obtain ⟨h1, h2, h3⟩ := h.words _ (hbid r hr)
    exact ⟨h1, h2, fun hk => h3 fun e => hk (by simp [Ast.first, e])⟩
  · simp only [List.append_assoc]
    obtain ⟨b', rest', hb', hde, he, hc⟩ := hsplit sp rest hsp hrest
    rw [he]
    simp only [Ast.items]
    refine many0_step (h.run b' rest' hb' hde) ?_ ?_
    · rw [hcu]; simp only [List.cons_append, List.length_cons, List.length_append]; omega
    · rcases hc with ⟨rfl, rfl, rfl⟩ | ⟨hn, rfl, rfl⟩
      · have := hl.run [] rest' Blank.nil hrest (fun _ => rfl)
        rw [hl.nil rfl] at this
        simpa only [List.nil_append] using this
      · exact hl.run sp rest hsp hrest fun e => absurd e hn
  · simp only [List.append_assoc]
    obtain ⟨b', rest', hb', hde, he, hc⟩ := hsplit sp rest hsp hrest
    rw [he]
    have hns := h.noSp (b' ++ rest')
    have hlen : rest'.length < (sp0 ++ (t ++ (b' ++ rest'))).length ∧
        (b' ++ rest').length < (sp0 ++ (t ++ (b' ++ rest'))).length := by
      rw [hcu]; simp only [List.cons_append, List.length_cons, List.length_append]; omega
    by_cases hkc : d.kind = .cv
    · have h1 := (h.cvSkip hkc b' rest' hb' hde).2
      have h2 : (do P.space0; cvOrRef : P Unit) (sp0 ++ (t ++ (b' ++ rest'))) = .ok rest' () :=
        bind_step (space0_run h0 hns) h1
      have h3 : ∃ r k, P.many0 (do P.space0; cvOrRef : P Unit) rest' = .ok r k ∧ r.head? ≠ some ':' := by
        rcases hc with ⟨rfl, rfl, rfl⟩ | ⟨hn, rfl, rfl⟩
        · have := hl.skip [] [] rest' Blank.nil Blank.nil hrest
          rw [hl.nil rfl] at this
          simpa only [List.nil_append] using this
        · have := hl.skip [] sp rest Blank.nil hsp hrest
          simpa only [List.nil_append] using this
      obtain ⟨r, k, h4, h5⟩ := h3
      exact ⟨r, () :: k, many0_step h2 hlen.1 h4, h5⟩
    by_cases hkr : d.kind = .ref
    · have h1 := h.refSkip hkr b' rest' hb' hde
      have h2 : (do P.space0; cvOrRef : P Unit) (sp0 ++ (t ++ (b' ++ rest'))) = .ok (b' ++ rest') () :=
        bind_step (space0_run h0 hns) h1
      have h3 : ∃ r k, P.many0 (do P.space0; cvOrRef : P Unit) (b' ++ rest') = .ok r k ∧ r.head? ≠ some ':' := by
        rcases hc with ⟨rfl, rfl, rfl⟩ | ⟨hn, rfl, rfl⟩
        · have := hl.skip b' [] rest' hb' Blank.nil hrest
          rw [hl.nil rfl] at this
          simpa only [List.nil_append] using this
        · exact hl.skip b' sp rest hb' hsp hrest
      obtain ⟨r, k, h4, h5⟩ := h3
      exact ⟨r, () :: k, many0_step h2 hlen.2 h4, h5⟩
    · refine ⟨sp0 ++ (t ++ (b' ++ rest')), [], many0_err (skip_err h0 hns (cvOrRef_err ?_ ?_)), blank_noColon h0 ?_⟩
      · exact (h.words _ (hde.id hb')).2.2 hkc
      · have := h.amp hkr
        rw [hcu] at this ⊢
        intro e
        simp only [List.cons_append, List.head?_cons, Option.some.injEq] at e
        exact this u (by rw [e])
      · rw [hcu]
        intro e
        simp only [List.cons_append, List.head?_cons, Option.some.injEq] at e
        rw [e] at hc2; exact hc2 (by simp)
  · simp only [List.append_assoc]
    obtain ⟨b', rest', hb', hde, he, hc⟩ := hsplit sp rest hsp hrest
    rw [he]
    rcases h.sig b' rest' hb' hde with ⟨hk, sg, h1⟩ | ⟨hk, h1⟩
    · rcases hc with ⟨rfl, rfl, rfl⟩ | ⟨hn, rfl, rfl⟩
      · exact Or.inr ⟨sg, h1⟩
      · exfalso
        rw [hk] at hm
        cases l with
        | nil => exact hn rfl
        | cons d l => cases hm
    · exact Or.inl h1
  · simp only [List.append_assoc]
    obtain ⟨b', rest', hb', hde, he, hc⟩ := hsplit sp rest hsp hrest
    rw [he]
    by_cases hkc : d.kind = .cv
    · exact bind_step (h.cvSkip hkc b' rest' hb' hde).1 (templateParameters_err hde.noAngle)
    · refine bind_step (cv_none_run ((h.words _ (hde.id hb')).2.2 hkc)) (templateParameters_err ?_)
      rw [hcu]
      intro e
      simp only [List.cons_append, List.head?_cons, Option.some.injEq] at e
      rw [e] at hc2; exact hc2 (by simp)
  · simp only [List.append_assoc]
    refine h.opEnd ?_ _
    simpa [Ast.first] using hk
  · simp only [List.append_assoc]
    refine h.notType ?_ _
    simpa [Ast.first] using hk

/-! ## Qualifiers and pointers -/

theorem sig_err_head {c : Char} {r : Input} (h1 : c ≠ '(') (h2 : c ≠ '[') :
    functionSignature grammar (c :: r) = .err := by
  apply functionSignature_err
  · intro u e; simp only [List.cons.injEq] at e; exact h1 e.1
  · intro u e
    have : "[abi:".toList = '[' :: "abi:".toList := by decide +kernel
    rw [this] at e
    simp only [List.cons_append, List.cons.injEq] at e
    exact h2 e.1

theorem dCv_good {cv : CV} {t : Input} (hcv : cv ≠ CV.none) (h : CvText cv t) : DeclopGood (.dCv cv) t := by
  have hne : t ≠ [] := by
    rintro rfl; exact hcv (cvText_nil h)
  obtain ⟨w, hw, v, hwv, hv⟩ := cvText_word h hne
  obtain ⟨c, cs, hc, hcc⟩ := cvWords_start w hw
  have ht : t = c :: (cs ++ v) := by rw [hwv, hc]; rfl
  have hrun : ∀ sp rest, Blank sp → DEnd .cv sp rest → parseCv (t ++ (sp ++ rest)) = .ok rest cv := by
    intro sp rest hsp hde
    have := cv_run h hsp (fun e => absurd e hne) hde.noSp hde.noId (hde.cv (Or.inl rfl)) (fun _ => trivial)
    rwa [List.append_assoc] at this
  refine ⟨⟨c, cs ++ v, ht, ?_, ?_⟩, fun _ u e => ?_, fun r hr => ?_, fun sp rest hsp hde => ?_,
    fun sp rest hsp hde => Or.inr ⟨by simp [Ast.kind], ?_⟩, fun _ sp rest hsp hde => ?_, by simp [Ast.kind],
    by simp [Ast.kind], by simp [Ast.kind]⟩
  · rcases hcc with rfl | rfl <;> decide
  · rcases hcc with rfl | rfl <;> decide
  · rw [ht] at e
    simp only [List.cons.injEq] at e
    rcases hcc with rfl | rfl <;> exact absurd e.1 (by decide)
  · have hwd : word (t ++ r) = w.toList := by
      rw [hwv, List.append_assoc]
      exact word_append (cvWords_id w hw) (hv r hr)
    refine ⟨keywords_err legacyTable_good ?_, keywords_err restrictTable_good ?_, fun h => absurd rfl h⟩
    · rw [hwd]
      have : ∀ w ∈ cvWords, ∀ e ∈ legacyTable, w.toList ≠ e.1.toList := by decide +kernel
      exact this w hw
    · rw [hwd]
      have : ∀ w ∈ cvWords, ∀ e ∈ restrictTable, w.toList ≠ e.1.toList := by decide +kernel
      exact this w hw
  · refine spaced_run (b := []) ?_ Blank.nil hde.noSp
    have hd : declOperator grammar (t ++ (sp ++ rest)) = P.or cvDecl (memberPointer grammar) (t ++ (sp ++ rest)) := by
      rw [declOperator, P.byHead, ht]
      rcases hcc with rfl | rfl <;> rfl
    rw [hd]
    refine or_l ?_
    rw [cvDecl]
    exact bind_step (verify_run (hrun sp rest hsp hde) (by simpa using hcv)) rfl
  · rw [ht]
    exact sig_err_head (by rcases hcc with rfl | rfl <;> decide) (by rcases hcc with rfl | rfl <;> decide)
  · refine ⟨hrun sp rest hsp hde, ?_⟩
    rw [cvOrRef]
    exact or_l (bind_step (verify_run (hrun sp rest hsp hde) (by simpa using hcv)) rfl)

theorem restrictWords_id : ∀ w ∈ ["restrict", "__restrict", "__restrict__"],
    (∀ c ∈ w.toList, isIdCont c = true) ∧ (w, ()) ∈ restrictTable := by decide +kernel

theorem restrictWords_noCv : ∀ w ∈ ["restrict", "__restrict", "__restrict__"],
    ∀ e ∈ cvTable, w.toList ≠ e.1.toList := by decide +kernel

theorem restrict_noSp {w : String} (hw : w ∈ ["restrict", "__restrict", "__restrict__"]) (r : Input) :
    NoSp (w.toList ++ r) := by
  simp only [List.mem_cons, List.not_mem_nil, or_false] at hw
  rcases hw with rfl | rfl | rfl <;> exact NoSp.cons (by decide)

theorem idHead_word {w : String} (hw : w ∈ ["restrict", "__restrict", "__restrict__"]) (r : Input) :
    idHead (w.toList ++ r) = true := by
  simp only [List.mem_cons, List.not_mem_nil, or_false] at hw
  rcases hw with rfl | rfl | rfl <;> rfl

theorem CV.or_none (c : CV) : c.or CV.none = c := by
  rcases c with ⟨a, b⟩; cases a <;> cases b <;> rfl

theorem CV.none_or (c : CV) : CV.none.or c = c := by
  rcases c with ⟨a, b⟩; cases a <;> cases b <;> rfl

/-- Qualifiers of a pointer. -/
theorem ptrQuals_run {cv : CV} {r : Bool} {q sp rest : Input} (h : PtrQuals cv r q) (hsp : Blank sp)
    (hde : DEnd .ptr sp rest) : ∃ m, P.space0 (q ++ (sp ++ rest)) = .ok m () ∧ cvRestrict m = .ok rest (cv, r) := by
  have hcvr := hde.cv (Or.inr rfl)
  have hrr := hde.restrict rfl
  cases h with
  | none =>
    refine ⟨rest, space0_run hsp hde.noSp, ?_⟩
    rw [cvRestrict]
    refine bind_step (spaced_run (b := []) (cv_none_run hcvr) Blank.nil hde.noSp) ?_
    refine bind_step (opt_none (spaced_err hrr)) ?_
    exact bind_step (cv_none_run hcvr) rfl
  | cv _ b t hne hb ht =>
    have htne : t ≠ [] := by
      rintro rfl; exact hne (cvText_nil ht)
    have hns : NoSp (t ++ (sp ++ rest)) := (cvText_starts ht htne (hde.id hsp)).noSp
    refine ⟨t ++ (sp ++ rest), ?_, ?_⟩
    · rw [List.append_assoc]; exact space0_run hb hns
    · have := cv_run ht hsp (fun e => absurd e htne) hde.noSp hde.noId hcvr (fun _ => trivial)
      rw [List.append_assoc] at this
      rw [cvRestrict]
      refine bind_step (spaced_run (b := []) this Blank.nil hde.noSp) ?_
      refine bind_step (opt_none (spaced_err hrr)) ?_
      refine bind_step (cv_none_run hcvr) ?_
      rw [CV.or_none]; rfl
  | restrict b w hb hw =>
    obtain ⟨h1, h2⟩ := restrictWords_id w hw
    refine ⟨w.toList ++ (sp ++ rest), ?_, ?_⟩
    · rw [List.append_assoc]; exact space0_run hb (restrict_noSp hw _)
    · rw [cvRestrict]
      refine bind_step (spaced_run (b := []) (cv_none_run (keywords_err cvTable_good ?_)) Blank.nil (restrict_noSp hw _)) ?_
      · rw [word_append h1 (hde.id hsp)]; exact restrictWords_noCv w hw
      refine bind_step (opt_some (spaced_run (b := sp)
        (keywords_word restrictTable_good h2 (idHead_false (hde.id hsp))) hsp hde.noSp)) ?_
      exact bind_step (cv_none_run hcvr) rfl
  | cvRestrict _ b t b' w hne hb ht hb' hne' hw =>
    have htne : t ≠ [] := by
      rintro rfl; exact hne (cvText_nil ht)
    obtain ⟨h1, h2⟩ := restrictWords_id w hw
    have hns : NoSp (t ++ (b' ++ (w.toList ++ (sp ++ rest)))) :=
      (cvText_starts ht htne (blank_idHead hb' fun e => absurd e hne')).noSp
    refine ⟨t ++ (b' ++ (w.toList ++ (sp ++ rest))), ?_, ?_⟩
    · simp only [List.append_assoc]; exact space0_run hb hns
    · have hk : keywords cvTable (w.toList ++ (sp ++ rest)) = .err := by
        apply keywords_err cvTable_good
        rw [word_append h1 (hde.id hsp)]; exact restrictWords_noCv w hw
      have := cv_run ht hb' (fun e => absurd e htne) (restrict_noSp hw (sp ++ rest)) (fun _ => hne') hk (fun _ => trivial)
      rw [List.append_assoc] at this
      rw [cvRestrict]
      refine bind_step (spaced_run (b := []) this Blank.nil (restrict_noSp hw _)) ?_
      refine bind_step (opt_some (spaced_run (b := sp)
        (keywords_word restrictTable_good h2 (idHead_false (hde.id hsp))) hsp hde.noSp)) ?_
      refine bind_step (cv_none_run hcvr) ?_
      rw [CV.or_none]; rfl

/-- Facts about operators that start with a symbol. -/
theorem noWord_head {c : Char} {s : Input} (h : isIdCont c = false) :
    keywords legacyTable (c :: s) = .err ∧ keywords restrictTable (c :: s) = .err ∧
    keywords cvTable (c :: s) = .err :=
  ⟨keywords_noId legacyTable_start h, keywords_noId restrictTable_start h, keywords_noId cvTable_start h⟩

theorem badHead_cons {c : Char} {s : Input} (h1 : isIdStart c = false) (h2 : c ∉ ['(', '{', '~', ':'])
    (h3 : P.isSpace c = false) : BadHead (c :: s) := by
  intro d r e
  simp only [List.cons.injEq] at e
  rw [← e.1]
  exact ⟨h1, h2, h3⟩

theorem dPtr_good {cv : CV} {r : Bool} {q : Input} (h : PtrQuals cv r q) :
    DeclopGood (.dPtr (.path false .nil) cv r) ('*' :: q) := by
  refine ⟨⟨'*', q, rfl, by decide, by decide⟩, fun _ u e => ?_, fun r hr => ?_, fun sp rest hsp hde => ?_,
    fun sp rest hsp hde => Or.inr ⟨by simp [Ast.kind], sig_err_head (by decide) (by decide)⟩,
    by simp [Ast.kind], by simp [Ast.kind], by simp [Ast.kind], fun _ r => ?_⟩
  · simp only [List.cons.injEq] at e; exact absurd e.1 (by decide)
  · obtain ⟨h1, h2, h3⟩ := noWord_head (c := '*') (s := q ++ r) (by decide)
    exact ⟨h1, h2, fun _ => h3⟩
  · refine spaced_run (b := []) ?_ Blank.nil hde.noSp
    have hd : declOperator grammar ('*' :: q ++ (sp ++ rest)) = basicPointer ('*' :: q ++ (sp ++ rest)) := rfl
    obtain ⟨m, h1, h2⟩ := ptrQuals_run h hsp hde
    rw [hd, basicPointer]
    refine bind_step (bind_step (char_run '*' _) h1) (bind_step h2 ?_)
    exact bind_step (internSeq_nil _) rfl
  · exact typeLike_bad (badHead_cons (by decide) (by decide) (by decide))

theorem member_proto {l : Ast (.list .scope)} {t : Input} (h : ScopesGood l t) (hn : l.namedFirst = true)
    (hlen : l.len < 256) (s : Input) : protoIdExpression grammar (t ++ '*' :: s) =
      .ok ('*' :: s) (.path false l, none) := by
  have hne : l ≠ .nil := by rintro rfl; cases hn
  obtain ⟨c, u, hcu, hc, -⟩ := h.head hne
  have h0 : protoLoop (scopeOrUid grammar) ('*' :: s) = .ok ('*' :: s) ([], none) :=
    proto_err (unqualifiedId_bad (badHead_cons (by decide) (by decide) (by decide)))
  have h1 := h.run _ _ _ _ h0
  rw [List.append_nil] at h1
  rw [protoIdExpression]
  refine bind_step (opt_none (tag_err_head (c := ':') (cs := [':']) (by decide +kernel) ?_)) ?_
  · rw [hcu]; simpa using hc
  · refine bind_step (p := protoLoop (scopeOrUid grammar)) h1 ?_
    exact bind_step (internSeq_run (bits := 8) l hlen _) rfl

theorem dMember_good {l : Ast (.list .scope)} {t : Input} {cv : CV} {r : Bool} {q : Input}
    (h : ScopesGood l t) (hn : l.namedFirst = true) (hlen : l.len < 256) (hq : PtrQuals cv r q) :
    DeclopGood (.dPtr (.path false l) cv r) (t ++ '*' :: q) := by
  have hne : l ≠ .nil := by rintro rfl; cases hn
  obtain ⟨c, u, hcu, hc, hcs⟩ := h.head hne
  have hcs := hcs hn
  have hneq : ∀ d, isIdStart d = false → c ≠ d := fun d hd => isIdStart_ne hcs hd
  refine ⟨⟨c, u ++ '*' :: q, by rw [hcu]; rfl, ?_, ?_⟩, fun _ v e => ?_, fun r hr => ?_, fun sp rest hsp hde => ?_,
    fun sp rest hsp hde => Or.inr ⟨by simp [Ast.kind], ?_⟩, by simp [Ast.kind], by simp [Ast.kind],
    by simp [Ast.kind], fun _ r => ?_⟩
  · exact NoSp.ident (r := []) (idStart_cont hcs) c [] rfl
  · intro hm
    simp only [List.mem_cons, List.not_mem_nil, or_false] at hm
    rcases hm with rfl | rfl | rfl | rfl | rfl | rfl | rfl <;> revert hcs <;> decide
  · rw [hcu] at e
    simp only [List.cons_append, List.cons.injEq] at e
    exact hneq '&' (by decide) e.1
  · have hst := h.starts hne ('*' :: q ++ r)
    rw [List.append_assoc]
    exact ⟨hst.legacy, hst.restrict, fun _ => hst.cv⟩
  · refine spaced_run (b := []) ?_ Blank.nil hde.noSp
    rw [List.append_assoc]
    have hst := h.starts hne ('*' :: q ++ (sp ++ rest))
    have hd : declOperator grammar (t ++ ('*' :: q ++ (sp ++ rest))) =
        memberPointer grammar (t ++ ('*' :: q ++ (sp ++ rest))) := by
      rw [declOperator, P.byHead]
      have hh : (t ++ ('*' :: q ++ (sp ++ rest))).head? = some c := by rw [hcu]; rfl
      rw [hh]
      simp only [Option.some.injEq, hneq '&' (by decide), hneq '*' (by decide), hneq '(' (by decide),
        hneq '[' (by decide), if_false]
      split
      · exact or_r (bind_err hst.vector) rfl
      · split
        · refine or_r ?_ rfl
          rw [cvDecl]
          exact bind_err (verify_err (cv_none_run hst.cv) (by decide))
        · rfl
    obtain ⟨m, h1, h2⟩ := ptrQuals_run hq hsp hde
    rw [hd, memberPointer]
    refine bind_step (r := '*' :: q ++ (sp ++ rest)) (a := .path false l) ?_ ?_
    · rw [nestedNameSpecifier, List.cons_append, member_proto h hn hlen]
    refine bind_step (char_run '*' _) ?_
    exact bind_step h1 (bind_step h2 rfl)
  · rw [hcu]
    exact sig_err_head (hneq '(' (by decide)) (hneq '[' (by decide))
  · rw [List.append_assoc]
    have hst := h.starts hne ('*' :: q ++ r)
    refine typeLike_err hst.noSp hst.t.attribute hst.cv hst.legacy hst.elaborated hst.auto ?_
    rw [idExpression]
    refine bind_step (r := '*' :: (q ++ r)) (a := (.path false l, none)) ?_ rfl
    rw [List.cons_append]
    exact member_proto h hn hlen _

/-! ## References, arrays, functions, parentheses, vectors -/

theorem reference_run {r : Ref} {s : Input} (hs : s.head? ≠ some '&') : parseReference (r.show ++ s) = .ok s r := by
  have e0 := many0_err (char_err hs)
  have e1 : P.many0 (P.char '&') ('&' :: s) = .ok s [()] := many0_step (char_run _ _) (by simp) e0
  have e2 : P.many0 (P.char '&') ('&' :: '&' :: s) = .ok s [(), ()] := many0_step (char_run _ _) (by simp) e1
  rw [parseReference]
  cases r with
  | none => exact mapOpt_run e0 rfl
  | lvalue => exact mapOpt_run e1 rfl
  | rvalue => exact mapOpt_run e2 rfl

theorem dRef_good {r : Ref} (hr : r ≠ .none) : DeclopGood (.dRef r) r.show := by
  have hh : ∃ u, r.show = '&' :: u := by
    cases r with
    | none => exact absurd rfl hr
    | lvalue => exact ⟨[], by decide +kernel⟩
    | rvalue => exact ⟨['&'], by decide +kernel⟩
  obtain ⟨u, hu⟩ := hh
  have hamp : ∀ sp rest, Blank sp → DEnd .ref sp rest → (sp ++ rest).head? ≠ some '&' := by
    intro sp rest hsp hde
    cases sp with
    | nil => exact hde.amp rfl
    | cons c b => exact blank_head hsp (by simp) (by decide)
  refine ⟨⟨'&', u, hu, by decide, by decide⟩, by simp [Ast.kind], fun s hs => ?_, fun sp rest hsp hde => ?_,
    fun sp rest hsp hde => Or.inr ⟨by simp [Ast.kind], ?_⟩, by simp [Ast.kind], fun _ sp rest hsp hde => ?_,
    by simp [Ast.kind], fun _ s => ?_⟩
  · rw [hu]
    obtain ⟨h1, h2, h3⟩ := noWord_head (c := '&') (s := u ++ s) (by decide)
    exact ⟨h1, h2, fun _ => h3⟩
  · refine spaced_run (b := sp) ?_ hsp hde.noSp
    rw [declOperator, P.byHead]
    have : (r.show ++ (sp ++ rest)).head? = some '&' := by rw [hu]; rfl
    rw [this, if_pos rfl]
    exact bind_step (reference_run (hamp sp rest hsp hde)) rfl
  · rw [hu]; exact sig_err_head (by decide) (by decide)
  · rw [cvOrRef]
    refine or_r (bind_err (verify_err (cv_none_run ?_) (by decide))) ?_
    · rw [hu]; exact (noWord_head (by decide)).2.2
    · exact bind_step (verify_run (reference_run (hamp sp rest hsp hde)) (by simpa using hr)) rfl
  · rw [hu]; exact typeLike_bad (badHead_cons (by decide) (by decide) (by decide))

theorem noSig_bracket {s : Input} (h : abiTag ('[' :: s) = .err) : functionSignature grammar ('[' :: s) = .err := by
  rw [functionSignature]
  refine bind_step (opt_none h) (bind_err (spaced_err ?_))
  rw [parameterSet]
  exact bind_err (charSp_err (by simp))

theorem abiTag_err {s : Input} (h : s.head? ≠ some 'a') : abiTag ('[' :: s) = .err := by
  have e : "[abi:".toList = '[' :: 'a' :: "bi:".toList := by decide +kernel
  refine bind_err (tag_err ?_)
  intro r e'
  rw [e] at e'
  simp only [List.cons_append, List.cons.injEq, true_and] at e'
  rw [e'] at h; exact h rfl

theorem binary_close {ac ag : Bool} {c : Char} {s : Input} (h : c = ')' ∨ c = ']') :
    binaryExprMiddle ac ag (c :: s) = .err := by
  have hn : NoSym (c :: s) := NoSym.cons (by rcases h with rfl | rfl <;> decide)
  rw [binary_run0 ac ag hn]; rfl

theorem Stop.close {c : Char} {s : Input} (h : c = ')' ∨ c = ']') : Stop (c :: s) := by
  refine ⟨fun d r e => ?_, NoEq.other ?_ ?_⟩
  · simp only [List.cons.injEq] at e
    rw [← e.1]
    rcases h with rfl | rfl <;> decide
  · rcases h with rfl | rfl <;> decide
  · rcases h with rfl | rfl <;> decide

/-- The declarator operator of an array, given the text between brackets. -/
theorem arr_good {v : Ast (.opt .value)} {b u : Input} (hb : Blank b)
    (ha : ∀ r, abiTag ('[' :: (b ++ (u ++ r))) = .err) (hns : ∀ r, NoSp (u ++ r))
    (h : ∀ r, ∃ m o, v = Ast.ofOption o ∧ P.opt (valueLike false true) (u ++ r) = .ok m o ∧
      P.spChar ']' m = .ok r ()) : DeclopGood (.dArr v) ('[' :: (b ++ u)) := by
  refine ⟨⟨'[', b ++ u, rfl, by decide, by decide⟩, fun _ w e => ?_, fun r hr => ?_, fun sp rest hsp hde => ?_,
    fun sp rest hsp hde => Or.inr ⟨by simp [Ast.kind], ?_⟩, by simp [Ast.kind], by simp [Ast.kind],
    by simp [Ast.kind], by simp [Ast.kind]⟩
  · simp only [List.cons.injEq] at e; exact absurd e.1 (by decide)
  · obtain ⟨h1, h2, h3⟩ := noWord_head (c := '[') (s := b ++ u ++ r) (by decide)
    exact ⟨h1, h2, fun _ => h3⟩
  · refine spaced_run (b := sp) ?_ hsp hde.noSp
    have et : '[' :: (b ++ u) ++ (sp ++ rest) = '[' :: (b ++ (u ++ (sp ++ rest))) := by
      simp only [List.append_assoc, List.cons_append]
    have hd : declOperator grammar ('[' :: (b ++ (u ++ (sp ++ rest)))) =
        P.or (funDecl grammar) (arrayDecl grammar) ('[' :: (b ++ (u ++ (sp ++ rest)))) := rfl
    rw [et, hd]
    refine or_r ?_ ?_
    · rw [funDecl]; exact bind_err (noSig_bracket (ha _))
    · obtain ⟨m, o, rfl, h1, h2⟩ := h (sp ++ rest)
      rw [arrayDecl, gVal]
      exact bind_step (charSp_run hb (hns _)) (bind_step h1 (bind_step h2 rfl))
  · have et : '[' :: (b ++ u) ++ (sp ++ rest) = '[' :: (b ++ (u ++ (sp ++ rest))) := by
      simp only [List.append_assoc, List.cons_append]
    rw [et]
    exact noSig_bracket (ha _)

theorem dArr0_good {b : Input} (hb : Blank b) : DeclopGood (.dArr .none) ('[' :: b ++ [']']) := by
  refine arr_good (v := .none) (u := [']']) hb (fun r => abiTag_err ?_) (fun r => NoSp.cons (by decide)) (fun r => ?_)
  · cases b with
    | nil => simp
    | cons c b => exact blank_head hb (by simp) (by decide)
  · refine ⟨']' :: r, none, rfl, opt_none (valueLike_noValue false true ?_), spChar_run (b := []) Blank.nil (by decide)⟩
    intro c u e
    simp only [List.cons_append, List.nil_append, List.cons.injEq] at e
    rw [← e.1]; decide

theorem ValueGood.abi_blank {v : Ast .value} {t : Input} (h : ValueGood v t) (hc : v.outer isComma = false)
    {b b' : Input} (hb : Blank b) (hb' : Blank b') (r : Input) :
    abiTag ('[' :: (b ++ (t ++ (b' ++ ']' :: r)))) = .err := by
  cases b with
  | nil => exact h.abi hc b' r hb'
  | cons c b => exact abiTag_err (blank_head hb (by simp) (by decide))

theorem dArr_good {v : Ast .value} {b t b' : Input} (hb : Blank b) (h : ValueGood v t)
    (hv : v.outer isComma = false) (hb' : Blank b') : DeclopGood (.dArr (.some v)) ('[' :: b ++ t ++ b' ++ [']']) := by
  have et : '[' :: b ++ t ++ b' ++ [']'] = '[' :: (b ++ (t ++ (b' ++ [']']))) := by
    simp only [List.append_assoc, List.cons_append]
  rw [et]
  refine arr_good (v := .some v) hb (fun r => ?_) (fun r => ?_) (fun r => ?_)
  · have := h.abi_blank hv hb hb' r
    simp only [List.append_assoc, List.cons_append, List.nil_append] at this ⊢
    exact this
  · rw [List.append_assoc]; exact h.noSp _
  · refine ⟨b' ++ ']' :: r, some v, rfl, ?_, spChar_run hb' (by decide)⟩
    have hs : Stop (']' :: r) := Stop.close (Or.inr rfl)
    have := h.run false true b' (']' :: r) hb' hs.value (.stop hv hs) (binary_close (Or.inr rfl))
    simp only [List.append_assoc, List.cons_append, List.nil_append] at this ⊢
    exact opt_some this

theorem dFun_good {sg : Ast .sig} {t : Input} (h : SigGood sg t) : DeclopGood (.dFun sg) t := by
  have hh : ∃ c u, t = c :: u ∧ (c = '(' ∨ c = '[') := by
    rcases h.cases with ⟨u, rfl⟩ | ⟨u, rfl⟩
    · exact ⟨_, _, rfl, Or.inl rfl⟩
    · exact ⟨_, _, rfl, Or.inr rfl⟩
  obtain ⟨c, u, hcu, hc⟩ := hh
  refine ⟨⟨c, u, hcu, by rcases hc with rfl | rfl <;> decide, by rcases hc with rfl | rfl <;> decide⟩,
    fun _ v e => ?_, fun r hr => ?_, fun sp rest hsp hde => ?_,
    fun sp rest hsp hde => Or.inl ⟨rfl, sg, h.run sp rest hsp (SigStop.of (hde.fn rfl)) fun _ => hde.fn rfl⟩, by simp [Ast.kind], by simp [Ast.kind],
    fun _ r => h.opEnd r, by simp [Ast.kind]⟩
  · rw [hcu] at e
    simp only [List.cons.injEq] at e
    rcases hc with rfl | rfl <;> exact absurd e.1 (by decide)
  · rw [hcu]
    obtain ⟨h1, h2, h3⟩ := noWord_head (c := c) (s := u ++ r) (by rcases hc with rfl | rfl <;> decide)
    exact ⟨h1, h2, fun _ => h3⟩
  · refine spaced_run (b := []) ?_ Blank.nil hde.noSp
    have h1 : funDecl grammar (t ++ (sp ++ rest)) = .ok rest (.dFun sg) := by
      rw [funDecl]; exact bind_step (h.run sp rest hsp (SigStop.of (hde.fn rfl)) fun _ => hde.fn rfl) rfl
    have hd : (declOperator grammar (t ++ (sp ++ rest)) =
        P.or (P.or (funDecl grammar) (parenDecl grammar)) (memberPointer grammar) (t ++ (sp ++ rest))) ∨
        (declOperator grammar (t ++ (sp ++ rest)) = P.or (funDecl grammar) (arrayDecl grammar) (t ++ (sp ++ rest))) := by
      rw [hcu]
      rcases hc with rfl | rfl
      · exact Or.inl rfl
      · exact Or.inr rfl
    rcases hd with hd | hd
    · rw [hd]; exact or_l (or_l h1)
    · rw [hd]; exact or_l h1

theorem noSig_paren {b s : Input} (hb : Blank b) (hns : NoSp s) (h1 : typeLike s = .err)
    (h2 : s.head? ≠ some '.') (h3 : s.head? ≠ some ')') : functionSignature grammar ('(' :: (b ++ s)) = .err := by
  rw [functionSignature]
  refine bind_step (opt_none (bind_err (tag_err_head (c := '[') (cs := "abi:".toList) (by decide +kernel) (by simp)))) ?_
  refine bind_err (spaced_err ?_)
  rw [parameterSet]
  refine bind_step (charSp_run hb hns) (or_err (bind_err ?_) (bind_err (char_err h3)))
  rw [P.sepTerm]
  refine bind_err ?_
  rw [parameterOrEllipsis, gTy]
  exact or_err (bind_err h1) (bind_err (tag_err_head (c := '.') (cs := "..".toList) (by decide +kernel) h2))

theorem dParen_good {d : Ast (.list .declop)} {b t b' : Input} (hb : Blank b) (h : DeclsGood d t)
    (hp : d.first = some .ptr ∨ d.first = some .ref) (hb' : Blank b') :
    DeclopGood (.dParen d) ('(' :: b ++ t ++ b' ++ [')']) := by
  have hne : d ≠ .nil := by rintro rfl; rcases hp with h | h <;> cases h
  obtain ⟨c, u, hcu, hc1, hc2⟩ := h.head hne
  have et : ∀ r, '(' :: b ++ t ++ b' ++ [')'] ++ r = '(' :: (b ++ (t ++ (b' ++ (')' :: r)))) := by
    intro r; simp only [List.append_assoc, List.cons_append, List.nil_append]
  have hns : ∀ r, functionSignature grammar ('(' :: (b ++ (t ++ r))) = .err := by
    intro r
    refine noSig_paren hb (h.noSp hne r) (h.notType hp r) ?_ ?_
    · rw [hcu]; simp only [List.cons_append, List.head?_cons, ne_eq, Option.some.injEq]
      rintro rfl; exact hc2 (by simp)
    · rw [hcu]; simp only [List.cons_append, List.head?_cons, ne_eq, Option.some.injEq]
      rintro rfl; exact hc2 (by simp)
  refine ⟨⟨'(', b ++ t ++ b' ++ [')'], rfl, by decide, by decide⟩, fun _ v e => ?_, fun r hr => ?_,
    fun sp rest hsp hde => ?_, fun sp rest hsp hde => Or.inr ⟨by simp [Ast.kind], ?_⟩, by simp [Ast.kind],
    by simp [Ast.kind], by simp [Ast.kind], by simp [Ast.kind]⟩
  · simp only [List.cons_append, List.cons.injEq] at e; exact absurd e.1 (by decide)
  · obtain ⟨h1, h2, h3⟩ := noWord_head (c := '(') (s := b ++ t ++ b' ++ [')'] ++ r) (by decide)
    exact ⟨h1, h2, fun _ => h3⟩
  · refine spaced_run (b := sp) ?_ hsp hde.noSp
    rw [et]
    have hd : declOperator grammar ('(' :: (b ++ (t ++ (b' ++ (')' :: (sp ++ rest)))))) =
      P.or (P.or (funDecl grammar) (parenDecl grammar)) (memberPointer grammar)
        ('(' :: (b ++ (t ++ (b' ++ (')' :: (sp ++ rest)))))) := rfl
    rw [hd]
    refine or_l (or_r ?_ ?_)
    · rw [funDecl]; exact bind_err (hns _)
    · rw [parenDecl, gDecl]
      refine bind_step (charSp_run hb (h.noSp hne _)) ?_
      refine bind_step (verify_run (r := ')' :: (sp ++ rest)) (a := d) ?_ ?_) ?_
      · rw [declarator_eq, stepDeclarator]
        exact bind_step (h.run b' (')' :: (sp ++ rest)) hb' (Stop.close (Or.inl rfl)) fun e => absurd e hne)
          (internSeq_run (bits := 8) _ h.len _)
      · cases d with
        | nil => exact absurd rfl hne
        | cons x l => rfl
      · exact bind_step (spChar_run (b := []) Blank.nil (by decide)) rfl
  · rw [et]; exact hns _

theorem dVec_good {v : Ast .value} {t : Input} (h : ValueGood v t) (hv : v.outer isComma = false) :
    DeclopGood (.dVec v) ("__vector(".toList ++ t ++ [')']) := by
  have e : "__vector(".toList = '_' :: "_vector(".toList := by decide +kernel
  have e2 : "__vector(".toList = "__vector".toList ++ ['('] := by decide +kernel
  have et : ∀ r, "__vector(".toList ++ t ++ [')'] ++ r = "__vector(".toList ++ (t ++ (')' :: r)) := by
    intro r; simp only [List.append_assoc, List.cons_append, List.nil_append]
  have hwd : ∀ r, word ("__vector(".toList ++ r) = "__vector".toList := by
    intro r
    rw [e2, List.append_assoc]
    exact word_append (by decide +kernel) rfl
  refine ⟨⟨'_', "_vector(".toList ++ t ++ [')'], by rw [e]; rfl, by decide, by decide⟩, fun _ v e' => ?_, fun r hr => ?_,
    fun sp rest hsp hde => ?_, fun sp rest hsp hde => Or.inr ⟨by simp [Ast.kind], ?_⟩, by simp [Ast.kind],
    by simp [Ast.kind], by simp [Ast.kind], by simp [Ast.kind]⟩
  · rw [e] at e'
    simp only [List.cons_append, List.cons.injEq] at e'; exact absurd e'.1 (by decide)
  · rw [et]
    refine ⟨keywords_err legacyTable_good ?_, keywords_err restrictTable_good ?_, fun _ => keywords_err cvTable_good ?_⟩ <;>
      (rw [hwd]; decide +kernel)
  · refine spaced_run (b := sp) ?_ hsp hde.noSp
    rw [et]
    have hd : declOperator grammar ("__vector(".toList ++ (t ++ (')' :: (sp ++ rest)))) =
      P.or (vectorDecl grammar) (memberPointer grammar) ("__vector(".toList ++ (t ++ (')' :: (sp ++ rest)))) := by
      rw [e]; rfl
    rw [hd]
    refine or_l ?_
    rw [vectorDecl, gVal]
    refine bind_step (tag_run _ _) ?_
    have hs : Stop (')' :: (sp ++ rest)) := Stop.close (Or.inl rfl)
    exact bind_step (h.run false true [] (')' :: (sp ++ rest)) Blank.nil hs.value (.stop hv hs)
      (binary_close (Or.inl rfl))) (bind_step (char_run _ _) rfl)
  · rw [et, e]; exact sig_err_head (by decide) (by decide)

end Verif.Cpp
