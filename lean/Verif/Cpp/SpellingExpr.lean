/-
C63: binary operators, `?:`, postfix operators and expressions read back what they spell, when their parts do.
-/
import Verif.Cpp.SpellingTrail

set_option autoImplicit false
set_option linter.unusedVariables false
set_option linter.unusedSimpArgs false

namespace Verif.Cpp

/-! ## Postfix operators -/

theorem trailPostfix_good {y : Symbol} {b : Input} (hy : y ∈ [Symbol.addPlus, .subNeg]) (hb : Blank b) :
    TrailersGood (.cons (.aPostfix (.arith (.basic y true false))) .nil) (b ++ [y.char, y.char]) := by
  have hy' : y.char = '+' ∧ y = .addPlus ∨ y.char = '-' ∧ y = .subNeg := by
    simp only [List.mem_cons, List.not_mem_nil, or_false] at hy
    rcases hy with rfl | rfl <;> decide
  have hne : ∀ d s, d ∉ ['+', '-'] → (y.char :: s).head? ≠ some d := by
    intro d s hd e
    simp only [List.head?_cons, Option.some.injEq] at e
    rw [← e] at hd
    rcases hy' with ⟨h, -⟩ | ⟨h, -⟩ <;> rw [h] at hd <;> exact hd (by simp)
  have hf : P.isSpace y.char = false ∧ isIdCont y.char = false ∧ y.char ≠ '\'' ∧ y.char ∉ ['=', '>', '<', '&', ':', '(', '['] ∧ y.char ∈ typeEnders := by
    rcases hy' with ⟨-, rfl⟩ | ⟨-, rfl⟩ <;> decide
  obtain ⟨f1, f2, f3, f4, f5⟩ := hf
  simp only [List.mem_cons, List.not_mem_nil, or_false, not_or] at f4
  refine trail_of ⟨hb, f1, f2, f3, ?_, ?_, fun _ => f5⟩ ?_ ?_ ?_ (fun e => (nomatch e)) (by simp)
  · rintro (e | e)
    · exact absurd e f4.1
    · exact absurd e f4.2.1
  · intro e; exact absurd e f4.2.2.1
  · intro ac ag sp rest hsp hr hfit hbin
    refine ⟨sp ++ rest, ?_, by simp, ?_⟩
    · rw [after_other ac ag fun d hd => hne d _ (by revert d; decide)]
      have hmid : binaryExprMiddle ac ag (y.char :: y.char :: (sp ++ rest)) = .ok (y.char :: (sp ++ rest)) (.basic y false false) := by
        rcases symbol_cases (sp ++ rest) with ⟨z, x, hz, -⟩ | ⟨-, hn⟩
        · have hza : z ≠ .assignEq := by
            rintro rfl
            cases sp with
            | nil => exact hr.ne (d := '=') (by decide) (by rw [List.nil_append] at hz; rw [hz]; rfl)
            | cons w sp => exact blank_head (s := rest) hsp (by simp) (c := '=') (by decide) (by rw [hz]; rfl)
          rw [hz, binary_run3]
          rcases hy' with ⟨-, rfl⟩ | ⟨-, rfl⟩ <;> cases z <;> first | exact absurd rfl hza | (cases ac <;> cases ag <;> rfl)
        · rw [binary_run2 ac ag y y hn]
          rcases hy' with ⟨-, rfl⟩ | ⟨-, rfl⟩ <;> cases ac <;> cases ag <;> rfl
      refine or_r ?_ ?_
      · rw [binaryOp, gVal]
        refine bind_step hmid (bind_step (space0_id (NoSp.cons f1)) (bind_err ?_))
        refine valueLike_sign ac ag ?_ hsp hr
        rcases hy' with ⟨h, -⟩ | ⟨h, -⟩
        · exact Or.inl h
        · exact Or.inr h
      · have e1 : "++".toList = ['+', '+'] := by decide +kernel
        have e2 : "--".toList = ['-', '-'] := by decide +kernel
        rcases hy' with ⟨-, rfl⟩ | ⟨-, rfl⟩
        · refine bind_step (r := sp ++ rest) (a := .basic .addPlus true false) ?_ rfl
          have := tag_run "++" (sp ++ rest)
          rw [e1] at this
          exact or_l (bind_step this rfl)
        · refine bind_step (r := sp ++ rest) (a := .basic .subNeg true false) ?_ rfl
          have := tag_run "--" (sp ++ rest)
          rw [e2] at this
          exact or_r (bind_err (tag_err_head (c := '+') (cs := ['+']) e1 (by rintro ⟨⟩))) (bind_step this rfl)
    · simp only [Ast.items]; exact after_end hsp hr hbin
  · intro hn sp rest hsp hr ha
    exact scopeEnd_head hb f1 f2 f4.2.2.2.1 f4.2.2.2.2.1 fun _ => sig_err_head f4.2.2.2.2.2.1 f4.2.2.2.2.2.2
  · intro hn sp rest hsp hr ha
    refine SigRest.head hb f1 f2 f4.2.2.2.1 f4.2.2.2.2.1 ?_
    intro _ u e
    simp only [List.cons_append, List.cons.injEq] at e
    exact f4.2.1 e.1

/-! ## Binary operators -/

def textSyms (o : ArithOp) : List Symbol := o.text.filterMap symbolOf

theorem binaryTable_text : ∀ e ∈ binaryTable, e.1.toList = e.2.text ∧ e.2.text = (textSyms e.2).map Symbol.char ∧
    (textSyms e.2).length ≤ 3 ∧ ∀ ac ag, (isComma e.2 = true → ac = true) → (isGreater e.2 = true → ag = true) →
      binaryResult ac ag (textSyms e.2)[0]? (textSyms e.2)[1]? (textSyms e.2)[2]? = some (some e.2) := by decide +kernel

/-- Facts about the first characters of binary operators. -/
theorem binaryTable_head : ∀ e ∈ binaryTable, ∃ c cs, e.2.text = c :: cs ∧ (P.isSpace c = false ∧ isIdCont c = false ∧ c ≠ '\'' ∧
    c ∉ [':', '(', '[', '?', '.']) ∧ (c = '<' → e.2 ≠ .basic .less false false → ∃ d u, cs = d :: u ∧ (d = '=' ∨ d = '<')) ∧
    (c ∈ ['/', '%', '^', '|', '=', '<', '>', ','] → c ∈ noValue) ∧ (c = '!' → cs = ['=']) ∧
    (c = '-' → cs = ['>'] ∧ e.2 = .deref false ∨ cs = ['>', '*'] ∧ e.2 = .deref true ∨ cs = ['='] ∨ cs = []) ∧
    (c = '&' → cs = [] ∧ isAmp e.2 = true ∨ cs = ['&'] ∧ isAmp e.2 = true ∨ cs = ['=']) := by
  intro e he
  have key1 : ∀ e ∈ binaryTable, ∀ c ∈ e.2.text.take 1, (P.isSpace c = false ∧ isIdCont c = false ∧ c ≠ '\'' ∧
      c ∉ [':', '(', '[', '?', '.']) := by decide +kernel
  have key2 : ∀ e ∈ binaryTable, ∀ c ∈ e.2.text.take 1, (c = '<' → e.2 ≠ .basic .less false false →
      e.2.text.tail.head? = some '=' ∨ e.2.text.tail.head? = some '<') := by decide +kernel
  have key3 : ∀ e ∈ binaryTable, ∀ c ∈ e.2.text.take 1,
      (c ∈ ['/', '%', '^', '|', '=', '<', '>', ','] → c ∈ noValue) := by decide +kernel
  have key4 : ∀ e ∈ binaryTable, ∀ c ∈ e.2.text.take 1, (c = '!' → e.2.text.tail = ['=']) := by decide +kernel
  have key5 : ∀ e ∈ binaryTable, ∀ c ∈ e.2.text.take 1, (c = '-' → e.2.text.tail = ['>'] ∧ e.2 = .deref false ∨
      e.2.text.tail = ['>', '*'] ∧ e.2 = .deref true ∨ e.2.text.tail = ['='] ∨ e.2.text.tail = []) := by decide +kernel
  have key6 : ∀ e ∈ binaryTable, ∀ c ∈ e.2.text.take 1, (c = '&' → e.2.text.tail = [] ∧ isAmp e.2 = true ∨
      e.2.text.tail = ['&'] ∧ isAmp e.2 = true ∨ e.2.text.tail = ['=']) := by decide +kernel
  have hne : ∀ e ∈ binaryTable, e.2.text ≠ [] := by decide +kernel
  cases ht : e.2.text with
  | nil => exact absurd ht (hne e he)
  | cons c cs =>
    have hm : c ∈ e.2.text.take 1 := by rw [ht]; simp
    have h1 := key1 e he c hm
    have h2 := key2 e he c hm
    have h3 := key3 e he c hm
    have h4 := key4 e he c hm
    have h5 := key5 e he c hm
    have h6 := key6 e he c hm
    rw [ht] at h2 h4 h5 h6
    refine ⟨c, cs, rfl, h1, fun e1 e2 => ?_, h3, h4, h5, h6⟩
    have := h2 e1 e2
    cases cs with
    | nil => simp at this
    | cons d u => exact ⟨d, u, rfl, by simpa using this⟩

theorem binary_table_run {w : String} {o : ArithOp} (h : (w, o) ∈ binaryTable) {ac ag : Bool} (hc : isComma o = true → ac = true)
    (hg : isGreater o = true → ag = true) {s : Input} (hs : NoSym s) :
    binaryExprMiddle ac ag (o.text ++ s) = .ok s o := by
  obtain ⟨-, h2, h3, h4⟩ := binaryTable_text (w, o) h
  replace h4 := h4 ac ag hc hg
  simp only at h2 h3 h4
  have hd : (o.text ++ s).drop o.text.length = s := by simp
  cases ht : textSyms o with
  | nil => rw [ht] at h4; cases h4
  | cons a l =>
    rw [ht] at h2 h3 h4
    cases l with
    | nil =>
      have := binary_run1 ac ag a hs
      simp only [List.getElem?_cons_zero, List.getElem?_cons_succ, List.getElem?_nil] at h4
      rw [h4, toRes] at this
      simp only [List.map_cons, List.map_nil] at h2
      rw [h2] at hd ⊢
      simp only [List.cons_append, List.nil_append] at hd ⊢
      rw [this, h2, hd]
    | cons b l =>
      cases l with
      | nil =>
        have := binary_run2 ac ag a b hs
        simp only [List.getElem?_cons_zero, List.getElem?_cons_succ, List.getElem?_nil] at h4
        rw [h4, toRes] at this
        simp only [List.map_cons, List.map_nil] at h2
        rw [h2] at hd ⊢
        simp only [List.cons_append, List.nil_append] at hd ⊢
        rw [this, h2, hd]
      | cons c l =>
        cases l with
        | nil =>
          have := binary_run3 ac ag a b c s
          simp only [List.getElem?_cons_zero, List.getElem?_cons_succ, List.getElem?_nil] at h4
          rw [h4, toRes] at this
          simp only [List.map_cons, List.map_nil] at h2
          rw [h2] at hd ⊢
          simp only [List.cons_append, List.nil_append] at hd ⊢
          rw [this, h2, hd]
        | cons d l => simp at h3

theorem NoSym.value {v : Ast .value} {t c : Input} (h : ValueGood v t) (hc : Blank c)
    (hsym : v.symHead = false → ∀ c u, t = c :: u → symbolOf c = none) (hcs : v.symHead = true → c ≠ []) (r : Input) :
    NoSym (c ++ (t ++ r)) := by
  refine blank_noSym hc ?_
  cases hx : v.symHead with
  | true => exact Or.inl (hcs hx)
  | false =>
    obtain ⟨d, u, hd, -⟩ := h.head
    right
    rw [hd]; exact NoSym.cons (hsym hx d u hd)

theorem trailBinary_good {w : String} {o : ArithOp} {b c : Input} {v : Ast .value} {t : Input} (hw : (w, o) ∈ binaryTable)
    (hb : Blank b) (hc : Blank c) (h : ValueGood v t)
    (hbe : o.text.head?.any (fun c => ['=', '>'].contains c) = true → b ≠ [])
    (hcs : v.symHead = true → c ≠ [] ∧ isArrow o = false) (hamp : isAmp o = true → v.ampHead = false)
    (hsymf : v.symHead = false → ∀ c u, t = c :: u → symbolOf c = none)
    (hampf : v.ampHead = false → ∀ c u, t = c :: u → c ≠ '&' ∧ c ≠ ':') :
    TrailersGood (.cons (.aBinary (.arith o) v) .nil) (b ++ w.toList ++ c ++ t) := by
  obtain ⟨x, xs, hx, ⟨f1, f2, f3, f4⟩, hless, hnv, hnot, hdash, hand⟩ := binaryTable_head (w, o) hw
  simp only at hx hless hdash hand
  have hns : ∀ r, NoSym (c ++ (t ++ r)) := NoSym.value h hc hsymf fun e => (hcs e).1
  have e0 : b ++ w.toList ++ c ++ t = b ++ x :: (xs ++ (c ++ t)) := by
    rw [(binaryTable_text (w, o) hw).1]
    simp only [hx, List.append_assoc, List.cons_append]
  have et : ∀ r, x :: (xs ++ (c ++ t) ++ r) = x :: (xs ++ (c ++ (t ++ r))) := by
    intro r; simp only [List.append_assoc, List.cons_append]
  simp only [List.mem_cons, List.not_mem_nil, or_false, not_or] at f4
  have houter : ∀ p : ArithOp → Bool, (Ast.cons (Ast.aBinary (.arith o) v) Ast.nil).outer p = (p o || v.outer p) := by
    intro p; simp [Ast.outer]
  have hz : ∀ sp rest, Blank sp → VStop rest → isAmp o = true → AmpEnd (t ++ (sp ++ rest)) := by
    intro sp rest hsp hr ho
    exact h.ampEnd (hampf (hamp ho)) (hr.blank_noId hsp)
  have heq : ∀ s, AmpEnd ('=' :: s) := fun s => ⟨NoSp.cons (by decide), (noWord_head (by decide)).2.2,
    by rw [word_nil rfl]; decide +kernel, by simp, by simp, by simp⟩
  have l1 : Ref.lvalue.show = ['&'] := by decide +kernel
  have l2 : Ref.rvalue.show = ['&', '&'] := by decide +kernel
  rw [e0]
  refine trail_of ⟨hb, f1, f2, f3, ?_, ?_, ?_⟩ ?_ ?_ ?_ ?_ (by simp)
  · intro e
    refine hbe ?_
    rw [hx]
    rcases e with rfl | rfl <;> simp
  · intro e1 e2
    obtain ⟨d, u, hd, hd'⟩ := hless e1 fun e => e2 (by rw [e]; rfl)
    exact ⟨d, u ++ (c ++ t), by rw [hd]; rfl, hd'⟩
  · intro e
    have e' : o.text.head?.any (fun c => typeEnders.contains c) = true := e
    rw [hx] at e'
    simpa using e'
  · intro ac ag sp rest hsp hr hf hbin
    refine ⟨sp ++ rest, ?_, ?_, ?_⟩
    · have hne : ∀ d ∈ ['(', '?', '.', '['], (x :: (xs ++ (c ++ t) ++ (sp ++ rest))).head? ≠ some d := by
        intro d hd e
        simp only [List.head?_cons, Option.some.injEq] at e
        subst e
        simp only [List.mem_cons, List.not_mem_nil, or_false] at hd
        rcases hd with rfl | rfl | rfl | rfl
        · exact f4.2.1 rfl
        · exact f4.2.2.2.1 rfl
        · exact f4.2.2.2.2 rfl
        · exact f4.2.2.1 rfl
      rw [after_other ac ag hne, et]
      refine or_l ?_
      rw [binaryOp, gVal]
      have hrun := binary_table_run hw (ac := ac) (ag := ag) (fun e => hf.comma (by rw [houter]; simp [e]))
        (fun e => hf.greater (by rw [houter]; simp [e])) (hns (sp ++ rest))
      rw [hx] at hrun
      refine bind_step hrun (bind_step (space0_run hc (h.noSp _)) ?_)
      refine bind_step (h.run ac ag sp rest hsp hr ⟨fun e => hf.comma ?_, fun e => hf.greater ?_, fun e => hf.arrow ?_⟩ hbin) rfl
      all_goals (rw [houter]; simp [e])
    · simp only [List.length_append]; omega
    · simp only [Ast.items]; exact after_end hsp hr hbin
  · intro hn sp rest hsp hr ha
    by_cases hxa : x = '&'
    · subst hxa
      refine scopeEnd_none ?_ ?_
      · cases b with
        | nil => exact sig_err_head (by decide) (by decide)
        | cons y b => exact blank_noSig hb (by simp)
      · rw [et]
        rcases hand rfl with ⟨rfl, ho⟩ | ⟨rfl, ho⟩ | rfl
        · have := amp_noColons (r := .lvalue) hb (by decide) hc (hz sp rest hsp hr ho)
          rw [l1] at this; exact this
        · have := amp_noColons (r := .rvalue) hb (by decide) hc (hz sp rest hsp hr ho)
          rw [l2] at this; exact this
        · have := amp_noColons (r := .lvalue) (c := []) hb (by decide) Blank.nil (heq (c ++ (t ++ (sp ++ rest))))
          rw [l1] at this; exact this
    · exact scopeEnd_head hb f1 f2 hxa f4.1 fun _ => sig_err_head f4.2.1 f4.2.2.1
  · intro hn sp rest hsp hr ha
    by_cases hxa : x = '&'
    · subst hxa
      rw [et]
      rcases hand rfl with ⟨rfl, ho⟩ | ⟨rfl, ho⟩ | rfl
      · have := amp_sigRest (r := .lvalue) hb (by decide) hc (hz sp rest hsp hr ho)
        rw [l1] at this; exact this
      · have := amp_sigRest (r := .rvalue) hb (by decide) hc (hz sp rest hsp hr ho)
        rw [l2] at this; exact this
      · have := amp_sigRest (r := .lvalue) (c := []) hb (by decide) Blank.nil (heq (c ++ (t ++ (sp ++ rest))))
        rw [l1] at this; exact this
    · by_cases hxd : x = '-'
      · subst hxd
        have e2 : "->".toList = ['-', '>'] := by decide +kernel
        have hcol : ∀ s, noColons ('-' :: s) := fun s => noColons_head (b := []) Blank.nil (by decide) (by decide) (by decide) (by decide)
        rcases hdash rfl with ⟨rfl, rfl⟩ | ⟨rfl, rfl⟩ | rfl | rfl
        · have hst : Stop rest := ha (by rw [houter]; rfl)
          rw [et]
          refine SigRest.of hb (NoSp.cons (by decide)) rfl (by simp) ?_
          have htag := tag_run "->" (c ++ (t ++ (sp ++ rest)))
          rw [e2] at htag
          rcases hn v rfl with hv | ⟨a, hv⟩
          · rcases h.notType hv sp rest hsp hr (fun _ => hst) with he | ⟨b3, c3, u3, a3, he, hb3, hc3⟩
            · refine ⟨_, none, opt_none ?_, hcol _⟩
              rw [trailingReturn, gTy]
              exact bind_step htag (bind_step (space0_run hc (h.noSp _)) he)
            · obtain ⟨g1, g2, g3⟩ := typeEnders_facts hc3
              refine ⟨b3 ++ c3 :: u3, some a3, opt_some ?_, noColons_head hb3 g1 g2 ?_ ?_⟩
              · rw [trailingReturn, gTy]
                exact bind_step htag (bind_step (space0_run hc (h.noSp _)) he)
              · rintro rfl; exact g3 (by simp)
              · rintro rfl; exact g3 (by simp)
          · obtain ⟨h1, h2⟩ := h.asTy a hv
            refine ⟨rest, some a, opt_some ?_, hst.value.noColons' (sp := []) Blank.nil⟩
            rw [trailingReturn, gTy]
            exact bind_step htag (bind_step (space0_run hc (h.noSp _)) (h1.run sp rest hsp hst (by rw [h2]; intro e; cases e)))
        · rw [et]
          refine SigRest.of hb (NoSp.cons (by decide)) rfl (by simp) ⟨_, none, opt_none ?_, hcol _⟩
          have htag := tag_run "->" ('*' :: (c ++ (t ++ (sp ++ rest))))
          rw [e2] at htag
          rw [trailingReturn, gTy]
          refine bind_step htag (bind_step (space0_id (NoSp.cons (by decide))) ?_)
          exact typeLike_bad (badHead_cons (by decide) (by decide) (by decide))
        · exact SigRest.head hb (by decide) (by decide) (by decide) (by decide) (by simp)
        · refine SigRest.head hb (by decide) (by decide) (by decide) (by decide) fun _ u e => ?_
          have := hns (sp ++ rest) .greater u
          simp only [List.nil_append, List.append_assoc] at e
          exact this e
      · exact SigRest.head hb f1 f2 hxa f4.1 fun e => absurd e hxd
  · intro hn r ac ag
    have hn' : o.text.head?.any (fun c => ['/', '%', '^', '|', '=', '<', '>', ',', '!'].contains c) = true := hn
    rw [hx] at hn'
    simp only [List.head?_cons, Option.any_some, List.contains_eq_mem, List.mem_cons, List.not_mem_nil, or_false,
      decide_eq_true_eq] at hn'
    by_cases hx1 : x = '!'
    · subst hx1
      rw [hnot rfl]
      exact valueLike_unequal ac ag _
    · refine noValue_cons (hnv ?_) _ ac ag
      clear hnv
      simp only [List.mem_cons, List.not_mem_nil, or_false]
      rcases hn' with h | h | h | h | h | h | h | h | h
      · exact .inl h
      · exact .inr (.inl h)
      · exact .inr (.inr (.inl h))
      · exact .inr (.inr (.inr (.inl h)))
      · exact .inr (.inr (.inr (.inr (.inl h))))
      · exact .inr (.inr (.inr (.inr (.inr (.inl h)))))
      · exact .inr (.inr (.inr (.inr (.inr (.inr (.inl h))))))
      · exact .inr (.inr (.inr (.inr (.inr (.inr (.inr h))))))
      · exact absurd h hx1

/-! ## `?:` -/

theorem trailTernary_good {b c c' d : Input} {v w : Ast .value} {t u : Input} (hb : Blank b) (hc : Blank c) (hc' : Blank c')
    (hd : Blank d) (h : ValueGood v t) (hv : v.outer isArrow = false) (hw : ValueGood w u)
    (hwa : d = [] → ∀ c x, u = c :: x → c ≠ ':') :
    TrailersGood (.cons (.aTernary v w) .nil) (b ++ '?' :: c ++ t ++ c' ++ ':' :: d ++ u) := by
  have e0 : b ++ '?' :: c ++ t ++ c' ++ ':' :: d ++ u = b ++ '?' :: (c ++ (t ++ (c' ++ ':' :: (d ++ u)))) := by
    simp only [List.append_assoc, List.cons_append]
  have et : ∀ r, '?' :: (c ++ (t ++ (c' ++ ':' :: (d ++ u))) ++ r) = '?' :: (c ++ (t ++ (c' ++ ':' :: (d ++ (u ++ r))))) := by
    intro r; simp only [List.append_assoc, List.cons_append]
  have houter : ∀ p : ArithOp → Bool, (Ast.cons (Ast.aTernary v w) Ast.nil).outer p = (v.outer p || w.outer p) := by
    intro p; simp [Ast.outer]
  rw [e0]
  refine trail_of ⟨hb, by decide, by decide, by decide, by simp, by simp, fun _ => by decide⟩ ?_ ?_ ?_ ?_ (by simp)
  · intro ac ag sp rest hsp hr hf hbin
    refine ⟨sp ++ rest, ?_, ?_, ?_⟩
    · rw [after_ternary, et, ternaryOp, gVal]
      have hstop : VStop (':' :: (d ++ (u ++ (sp ++ rest)))) := by
        refine ⟨by rintro c r ⟨⟩; simp, NoEq.other (by decide) (by decide), fun r e => ?_⟩
        simp only [List.cons.injEq, true_and] at e
        cases d with
        | nil =>
          obtain ⟨x, y, hxy, -⟩ := hw.head
          rw [hxy] at e
          simp only [List.nil_append, List.cons_append, List.cons.injEq] at e
          exact hwa rfl x y hxy e.1
        | cons x d => exact blank_head (s := u ++ (sp ++ rest)) hd (by simp) (c := ':') (by decide) (by rw [e]; rfl)
      refine bind_step (charSp_run hc (h.noSp _)) ?_
      refine bind_step (h.run ac ag c' _ hc' hstop ⟨fun e => hf.comma ?_, fun e => hf.greater ?_, fun e => ?_⟩ ?_) ?_
      · rw [houter]; simp [e]
      · rw [houter]; simp [e]
      · rw [hv] at e; cases e
      · rw [binary_run0 ac ag (NoSym.cons (by decide))]; rfl
      refine bind_step (spCharSp_run hc' (by decide) hd (hw.noSp _)) ?_
      refine bind_step (hw.run ac ag sp rest hsp hr ⟨fun e => hf.comma ?_, fun e => hf.greater ?_, fun e => hf.arrow ?_⟩ hbin) rfl
      all_goals (rw [houter]; simp [e])
    · simp only [List.length_append, List.length_cons]; omega
    · simp only [Ast.items]; exact after_end hsp hr hbin
  · intro hn sp rest hsp hr ha
    exact scopeEnd_head hb (by decide) (by decide) (by decide) (by decide) fun _ => sig_err_head (by decide) (by decide)
  · intro hn sp rest hsp hr ha
    exact SigRest.head hb (by decide) (by decide) (by decide) (by decide) (by simp)
  · intro _ r ac ag
    exact noValue_cons (by decide) _ ac ag

/-! ## Values -/

/-- `abi` at the start of a text that is no scope. -/
theorem valueLike_abi {s : Input} (hs : ∀ r, s ≠ ':' :: r) (ac ag : Bool) :
    ∃ v, valueLike ac ag ('a' :: 'b' :: 'i' :: ':' :: s) = .ok (':' :: s) v := by
  have e : ∀ r, 'a' :: 'b' :: 'i' :: ':' :: r = "abi".toList ++ ':' :: r := by
    have : "abi".toList = ['a', 'b', 'i'] := by decide +kernel
    intro r; rw [this]; rfl
  have hi : IsName "abi".toList := by
    refine ⟨⟨by decide +kernel, 'a', ['b', 'i'], by decide +kernel, by decide⟩, by decide +kernel⟩
  have hid : IdGood (.idExpr (.path false .nil) (.named false "abi".toList .none)) ([] ++ (([] : Input) ++ "abi".toList)) :=
    idExpr_good (path_good (rooted := false) (l := .nil) (t := []) scopesNil_good (by simp [Ast.len])) (named_good (d := false) hi)
  have hv : VStop (':' :: s) := ⟨by rintro c r ⟨⟩; simp, NoEq.other (by decide) (by decide), fun r e => by
    simp only [List.cons.injEq, true_and] at e; exact hs r e⟩
  have hend := hv.nameEnd (sp := []) Blank.nil
  have hrun := hid.run rfl (':' :: s) hend (by intro e; cases e)
  refine ⟨.value (.hId (.idExpr (.path false .nil) (.named false "abi".toList .none))) .nil, ?_⟩
  rw [valueLike_eq, stepValueLike]
  refine bind_step (r := ':' :: s) (a := .hId (.idExpr (.path false .nil) (.named false "abi".toList .none))) ?_ ?_
  · rw [valueHeader]
    refine or_r (bind_err (literal_err (by simp) (by simp) (noDigit_cons (by decide)) (by simp))) ?_
    refine or_r (bind_err (not_new_head (by simp) (by simp))) ?_
    refine or_r (ofType_err (tag_err_head (c := 's') (cs := "izeof(".toList) (by decide +kernel) (by simp))) ?_
    refine or_r (ofType_err (tag_err_head (c := 'd') (cs := "eclval(".toList) (by decide +kernel) (by simp))) (or_l ?_)
    refine bind_step ?_ rfl
    rw [e]
    exact hrun
  · refine bind_step (after_end (sp := []) Blank.nil hv ?_) (bind_step (internSeq_nil _) rfl)
    rw [binary_run0 ac ag (NoSym.cons (by decide))]; rfl

theorem value_good {h : Ast .header} {t : Input} {l : Ast (.list .after)} {tl : Input} (hh : HeaderGood h t)
    (hl : TrailersGood l tl) (hm : MayTrail h l) (hlen : l.len < 64) : ValueGood (.value h l) (t ++ tl) := by
  have hrun : ∀ ac ag sp rest, Blank sp → VStop rest → Fits (.value h l) ac ag rest → binaryExprMiddle ac ag rest = .err →
      valueLike ac ag (t ++ tl ++ (sp ++ rest)) = .ok (sp ++ rest) (.value h l) := by
    intro ac ag sp rest hsp hr hf hbin
    have hfh : Fits h ac ag rest := ⟨fun e => hf.comma (by simp [Ast.outer, e]), fun e => hf.greater (by simp [Ast.outer, e]),
      fun e => hf.arrow (by simp [Ast.outer, e])⟩
    have hfl : Fits l ac ag rest := ⟨fun e => hf.comma (by simp [Ast.outer, e]), fun e => hf.greater (by simp [Ast.outer, e]),
      fun e => hf.arrow (by simp [Ast.outer, e])⟩
    rw [List.append_assoc, valueLike_eq, stepValueLike]
    have hint : internSeq 6 l.items (sp ++ rest) = .ok (sp ++ rest) l := internSeq_run (bits := 6) l hlen _
    cases ho : h.isOpen with
    | true =>
      have hln : l = .nil := by
        cases h <;> first | exact hm | cases ho
      subst hln
      have ht := hl.nil rfl
      subst ht
      refine bind_step (hh.all ho ac ag sp rest hsp hr hfh hbin) ?_
      simp only [Ast.items] at hint
      exact bind_step (after_end hsp hr hbin) (bind_step hint rfl)
    | false =>
      refine bind_step (hh.atom ho ac ag (tl ++ (sp ++ rest)) ⟨hl.noId (hr.blank_noId hsp), hl.quote ?_, fun hn => ?_, fun v e => ?_⟩) ?_
      · intro e
        cases sp with
        | nil => exact hr.ne (by decide) e
        | cons x sp => exact blank_head (s := rest) hsp (by simp) (c := '\'') (by decide) e
      · have hnf : NameFollow l := by
          cases h <;> first | exact hm | cases hn
        exact hl.nameEnd hnf hsp hr hfl.arrow
      · subst e
        rcases hm with hm | ⟨hm1, hm2⟩
        · exact Or.inl hm
        · obtain ⟨b, z, h1, h2, h3, h4⟩ := hl.cast hm2 sp rest hsp hr
          exact Or.inr ⟨hm1, b, z, h1, h2, h3, h4⟩
      · exact bind_step (hl.run ac ag sp rest hsp hr hfl hbin) (bind_step hint rfl)
  obtain ⟨c, u, rfl, hc1, hc2⟩ := hh.head
  have hdot : (Ast.value h l).dots = false → ∀ x, c :: u ++ tl ≠ '.' :: x := by
    intro e x ex
    simp only [List.cons_append, List.cons.injEq] at ex
    exact hh.dot e u (by rw [ex.1])
  refine ⟨⟨c, u ++ tl, rfl, hc1, hc2⟩, hdot, fun r hr => ?_, fun hco b' r hb' => ?_, fun hnt sp rest hsp hr ha => ?_, hrun, fun a ha => ?_⟩
  · rw [List.append_assoc]; exact hh.words _ (hl.noId hr)
  · have e5 : "[abi:".toList = ['[', 'a', 'b', 'i', ':'] := by decide +kernel
    rw [abiTag]
    by_cases hx : ∃ y, c :: u ++ tl ++ (b' ++ ']' :: r) = 'a' :: 'b' :: 'i' :: ':' :: y
    · obtain ⟨y, hy⟩ := hx
      rw [hy]
      have htag := tag_run "[abi:" y
      rw [e5] at htag
      refine bind_step htag ?_
      by_cases hyc : ∃ r', y = ':' :: r'
      · obtain ⟨r', rfl⟩ := hyc
        exact bind_err (identifier_err (by rintro c r ⟨⟩; decide))
      · have hst : Stop (']' :: r) := Stop.close (Or.inr rfl)
        obtain ⟨v', hv'⟩ := valueLike_abi (s := y) (fun r' e => hyc ⟨r', e⟩) false true
        have h2 := hrun false true b' (']' :: r) hb' hst.value (.stop hco hst) (binary_close (Or.inr rfl))
        rw [hy, hv'] at h2
        simp only [Res.ok.injEq] at h2
        have h3 := h2.1
        exfalso
        cases b' with
        | nil => simp at h3
        | cons x b' => exact blank_head (s := ']' :: r) hb' (by simp) (c := ':') (by decide) (by rw [← h3]; rfl)
    · refine bind_err (tag_err fun y e => hx ⟨y, ?_⟩)
      rw [e5] at e
      simp only [List.cons_append, List.cons.injEq, true_and, List.nil_append] at e ⊢
      exact e
  · rw [List.append_assoc]
    have hal : l.outer isArrow = true → Stop rest := fun e => ha (by simp [Ast.outer, e])
    have hcases : h.headerNotType = true ∨ (h.isName = true ∧ l.endsType = true) := by
      have : (h.headerNotType || (h.isName && l.endsType)) = true := hnt
      simpa using this
    rcases hcases with h1 | ⟨h1, h2⟩
    · exact hh.notType h1 _ (hl.noId (hr.blank_noId hsp))
    · obtain ⟨i, rfl⟩ : ∃ i, h = .hId i := by
        cases h <;> first | exact ⟨_, rfl⟩ | cases h1
      obtain ⟨g1, g2, g3⟩ := hh.name i rfl
      have hln : l ≠ .nil := by rintro rfl; cases h2
      have hend := hl.nameEnd hm hsp hr hal
      obtain ⟨b, d, x, rfl, hd⟩ := hl.head hln
      simp only [List.append_assoc, List.cons_append] at hend ⊢
      have := typeLike_ender g1 g2 g3 hd.blank (hd.ender h2) hend
      exact Or.inr ⟨[], d, _, _, this, Blank.nil, hd.ender h2⟩
  · have hcv : CvText CV.none [] := ⟨[], by simp, Words.nil, rfl⟩
    generalize ev : Ast.value h l = v at ha
    cases ha with
    | name i =>
      simp only [Ast.value.injEq] at ev
      obtain ⟨rfl, rfl⟩ := ev
      obtain ⟨g1, g2, g3⟩ := hh.name i rfl
      refine ⟨?_, by simp [Ast.tyOp, Ast.simpleOp, g2]⟩
      have := ty_good hcv Blank.nil (by simp) (stId_good g1) (b2 := []) Blank.nil declNil_good (fun _ => rfl) (by simp [idHead])
        (by simp [Ast.simpleOp, g2]) (by simp)
      rw [hl.nil rfl]
      simpa using this
    | call i al p hp =>
      simp only [Ast.value.injEq] at ev
      obtain ⟨rfl, rfl⟩ := ev
      obtain ⟨g1, g2, g3⟩ := hh.name i rfl
      refine ⟨?_, by simp [Ast.tyOp, Ast.isNil]⟩
      obtain ⟨b, x, rfl, hb, hx⟩ := hl.asDecl al p rfl hp
      have := ty_good hcv Blank.nil (by simp) (stId_good g1) (b2 := b) hb hx (fun e => (nomatch e)) (by intro e; cases e)
        (by simp [Ast.simpleOp, g2]) (by simp [Ast.simpleConv, g3])
      simpa using this

end Verif.Cpp
