/-
C63: names and types read back what they spell, when their parts do.
-/
import Verif.Cpp.SpellingOps

set_option autoImplicit false
set_option linter.unusedVariables false
set_option linter.unusedSimpArgs false

namespace Verif.Cpp

theorem bind_inv {α β : Type} {p : P α} {f : α → P β} {s r : Input} {b : β} (h : (p >>= f) s = .ok r b) :
    ∃ r' a, p s = .ok r' a ∧ f a r' = .ok r b := by
  rw [P.bind_run] at h
  cases hp : p s with
  | ok r' a => rw [hp] at h; exact ⟨r', a, rfl, h⟩
  | err => rw [hp] at h; cases h
  | panic => rw [hp] at h; cases h
  | fuel => rw [hp] at h; cases h

/-- The items of a sequence. -/
def Ast.items {s : S} : Ast (.list s) → List (Ast s)
  | .nil => []
  | .cons a l => a :: l.items

theorem Ast.ofList_items {s : S} : ∀ l : Ast (.list s), Ast.ofList l.items = l
  | .nil => by simp only [Ast.items, Ast.ofList]
  | .cons a l => by simp only [Ast.items, Ast.ofList, Ast.ofList_items l]

theorem Ast.length_items {s : S} : ∀ l : Ast (.list s), l.items.length = l.len
  | .nil => by simp only [Ast.items, Ast.len, List.length_nil]
  | .cons a l => by simp only [Ast.items, Ast.len, List.length_cons, Ast.length_items l]

theorem internSeq_run {s : S} {bits : Nat} (l : Ast (.list s)) (h : l.len < 2 ^ bits) (r : Input) :
    internSeq bits l.items r = .ok r l := by
  rw [internSeq, Ast.length_items, if_pos h, Ast.ofList_items]
  rfl

theorem internSeq_nil {s : S} {bits : Nat} (r : Input) :
    internSeq bits ([] : List (Ast s)) r = .ok r .nil := by
  rw [internSeq, if_pos (by simp)]
  rfl

/-! ## What the induction proves -/

/-- After the first word of the text there is no quote. -/
def NoQuote (s : Input) : Prop := ∀ u, s.dropWhile isIdCont ≠ '\'' :: u

structure UidGood (a : Ast .uid) (t : Input) : Prop where
  starts : ∀ r, idHead r = false → Starts (t ++ r)
  noQuote : ∀ r, idHead r = false → r.head? ≠ some '\'' → NoQuote (t ++ r)
  head : ∃ c r, t = c :: r ∧ c ≠ ':' ∧ (a.plain = true → isIdStart c = true)
  run : a.uidConv = false → ∀ r, UidEnd r → (a.uidOp = true → OpEnd r) → unqualifiedId grammar (t ++ r) = .ok r a
  conv : a.uidConv = true → ∀ sp rest, Blank sp → Stop rest → unqualifiedId grammar (t ++ (sp ++ rest)) = .ok rest a

structure ScopeGood (a : Ast .scope) (t : Input) : Prop where
  starts : ∀ r, Starts (t ++ r)
  noQuote : ∀ r, NoQuote (t ++ r)
  head : ∃ c r, t = c :: r ∧ c ≠ ':' ∧ (a.scopePlain = true → isIdStart c = true)
  run : ∀ r, scopeOrUid grammar (t ++ r) = .ok r (.inl a)

structure ScopesGood (l : Ast (.list .scope)) (t : Input) : Prop where
  nil : l = .nil → t = []
  starts : l ≠ .nil → ∀ r, Starts (t ++ r)
  noQuote : l ≠ .nil → ∀ r, NoQuote (t ++ r)
  head : l ≠ .nil → ∃ c r, t = c :: r ∧ c ≠ ':' ∧ (l.namedFirst = true → isIdStart c = true)
  run : ∀ s r l' o, protoLoop (scopeOrUid grammar) s = .ok r (l', o) →
    protoLoop (scopeOrUid grammar) (t ++ s) = .ok r (l.items ++ l', o)

structure PathGood (p : Ast .path) (t : Input) : Prop where
  starts : ∀ s, Starts s → Starts (t ++ s)
  noQuote : ∀ s, NoQuote s → NoQuote (t ++ s)
  run : ∀ s r s' u, s.head? ≠ some ':' → protoLoop (scopeOrUid grammar) s = .ok r ([], some (s', u)) →
    protoIdExpression grammar (t ++ s) = .ok r (p, some (s', u))

structure IdGood (i : Ast .idExpr) (t : Input) : Prop where
  starts : ∀ r, idHead r = false → Starts (t ++ r)
  noQuote : ∀ r, idHead r = false → r.head? ≠ some '\'' → NoQuote (t ++ r)
  run : i.idConv = false → ∀ r, NameEnd r → (i.idOp = true → OpEnd r) → idExpression grammar (t ++ r) = .ok r i
  conv : i.idConv = true → ∀ sp rest, Blank sp → Stop rest → idExpression grammar (t ++ (sp ++ rest)) = .ok rest i

structure SimpleGood (a : Ast .simple) (t : Input) : Prop where
  starts : ∀ r, idHead r = false → TStarts (t ++ r)
  cv : ∀ r, idHead r = false → keywords cvTable (t ++ r) = .err
  run : ∀ sp rest, Blank sp → NoSp rest → NameEnd (sp ++ rest) → keywords legacyTable rest = .err →
    (a.simpleOp = true → sp = [] ∧ OpEnd rest) → (a.simpleConv = true → Stop rest) →
    spaced (simpleType grammar) (t ++ (sp ++ rest)) = .ok rest a

structure TyGood (a : Ast .ty) (t : Input) : Prop where
  starts : ∀ r, idHead r = false → AStarts (t ++ r)
  noAttr : a.noAttr = true → ∀ r, idHead r = false → TStarts (t ++ r)
  run : ∀ sp rest, Blank sp → Stop rest → (a.tyOp = true → sp = [] ∧ OpEnd rest) →
    typeLike (t ++ (sp ++ rest)) = .ok rest a

structure TparamsGood (a : Ast .tparams) (t : Input) : Prop where
  head : ∃ u, t = '<' :: u
  run : ∀ r, NoEq r → templateParameters grammar (t ++ r) = .ok r a

structure SigGood (sg : Ast .sig) (t : Input) : Prop where
  head : ∃ c u, t = c :: u ∧ (c = '(' ∨ t = "[abi:".toList ++ u.drop 4)
  run : ∀ sp rest, Blank sp → SigStop rest → (sg.trails = true → Stop rest) → functionSignature grammar (t ++ (sp ++ rest)) = .ok rest sg

structure DeclsGood (l : Ast (.list .declop)) (t : Input) : Prop where
  nil : l = .nil → t = []
  len : l.len < 256
  head : l ≠ .nil → ∃ c u, t = c :: u ∧ P.isSpace c = false ∧ c ∉ [':', '<', '>', '=', '\'', '.', ')']
  amp : l.first ≠ some .ref → ∀ u, t ≠ '&' :: u
  words : l ≠ .nil → ∀ r, idHead r = false → keywords legacyTable (t ++ r) = .err ∧
    keywords restrictTable (t ++ r) = .err ∧ (l.first ≠ some .cv → keywords cvTable (t ++ r) = .err)
  run : ∀ sp rest, Blank sp → Stop rest → (l = .nil → sp = []) →
    P.many0 (spaced (declOperator grammar)) (t ++ (sp ++ rest)) = .ok rest l.items
  /-- no scope after a name -/
  skip : ∀ sp0 sp rest, Blank sp0 → Blank sp → Stop rest → ∃ r k,
    P.many0 (do P.space0; cvOrRef) (sp0 ++ (t ++ (sp ++ rest))) = .ok r k ∧ r.head? ≠ some ':'
  sig : ∀ sp rest, Blank sp → Stop rest → functionSignature grammar (t ++ (sp ++ rest)) = .err ∨
    ∃ sg, functionSignature grammar (t ++ (sp ++ rest)) = .ok rest sg
  noTemplate : l ≠ .nil → ∀ sp rest, Blank sp → Stop rest →
    (do let _ ← parseCv; templateParameters grammar : P (Ast .tparams)) (t ++ (sp ++ rest)) = .err
  opEnd : l.first = none ∨ l.first = some .fn → ∀ sp rest, Blank sp → Stop rest → (l = .nil → sp = [] ∧ OpEnd rest) →
    OpEnd (t ++ (sp ++ rest))
  notType : l.first = some .ptr ∨ l.first = some .ref → ∀ r, typeLike (t ++ r) = .err

/-! ## Words -/

theorem noQuote_word {i r : Input} (hi : ∀ c ∈ i, isIdCont c = true) (hr : idHead r = false)
    (hq : r.head? ≠ some '\'') : NoQuote (i ++ r) := by
  intro u e
  rw [drop_append hi hr] at e
  rw [e] at hq; exact hq rfl

theorem noQuote_cons {c : Char} {r : Input} (hc : isIdCont c = false) (hq : c ≠ '\'') : NoQuote (c :: r) := by
  intro u e
  rw [List.dropWhile_cons, if_neg (by simp [hc])] at e
  simp only [List.cons.injEq] at e
  exact hq e.1

theorem UidEnd.of {c : Char} {r : Input} (h1 : isIdCont c = false) (h2 : P.isSpace c = false)
    (h3 : c ∉ ['<', '>', '=']) : UidEnd (c :: r) := by
  simp only [List.mem_cons, List.not_mem_nil, or_false, not_or] at h3
  refine ⟨h1, ?_, NoEq.other h3.2.1 h3.2.2⟩
  refine bind_step (space0_id (NoSp.cons h2)) ?_
  refine bind_step (cv_none_run (keywords_noId cvTable_start h1)) ?_
  exact templateParameters_err (by simpa using h3.1)

theorem OpEnd.of {c : Char} {r : Input} (h1 : symbolOf c = none) (h2 : P.isSpace c = false)
    (h3 : c ≠ '[' ∨ ∀ u, r ≠ ']' :: u) : OpEnd (c :: r) := by
  refine ⟨NoSym.cons h1, NoSp.cons h2, ?_⟩
  intro u e
  have : "[]".toList = ['[', ']'] := by decide +kernel
  rw [this] at e
  simp only [List.cons_append, List.cons.injEq, List.nil_append] at e
  rcases h3 with h3 | h3
  · exact h3 e.1
  · exact h3 u e.2

theorem SigGood.cases {sg : Ast .sig} {t : Input} (h : SigGood sg t) :
    (∃ u, t = '(' :: u) ∨ ∃ u, t = '[' :: 'a' :: u := by
  obtain ⟨c, u, e, hc⟩ := h.head
  rcases hc with rfl | hc
  · exact Or.inl ⟨u, e⟩
  · refine Or.inr ⟨"bi:".toList ++ u.drop 4, ?_⟩
    rw [hc]
    have : "[abi:".toList = '[' :: 'a' :: "bi:".toList := by decide +kernel
    rw [this]; rfl

theorem SigGood.uidEnd {sg : Ast .sig} {t : Input} (h : SigGood sg t) (r : Input) : UidEnd (t ++ r) := by
  rcases h.cases with ⟨u, rfl⟩ | ⟨u, rfl⟩
  · exact UidEnd.of (by decide) (by decide) (by decide)
  · exact UidEnd.of (by decide) (by decide) (by decide)

theorem SigGood.opEnd {sg : Ast .sig} {t : Input} (h : SigGood sg t) (r : Input) : OpEnd (t ++ r) := by
  rcases h.cases with ⟨u, rfl⟩ | ⟨u, rfl⟩
  · exact OpEnd.of (by decide) (by decide) (Or.inl (by decide))
  · exact OpEnd.of (by decide) (by decide) (Or.inr (by simp))

/-! ## Unqualified names -/

theorem isIdStart_ne {c d : Char} (h : isIdStart c = true) (hd : isIdStart d = false) : c ≠ d := by
  rintro rfl; rw [h] at hd; cases hd

theorem uid_named {i s : Input} (hi : IsName i) (hs : idHead s = false) :
    unqualifiedId grammar (i ++ s) = named grammar false (i ++ s) := by
  obtain ⟨hi1, hi2⟩ := hi
  obtain ⟨hi3, c, cs, hi4, hi5⟩ := id hi1
  have hh : (i ++ s).head? = some c := by rw [hi4]; rfl
  have hw : word (i ++ s) = i := word_append hi3 hs
  rw [unqualifiedId, P.byHead, hh]
  simp only [Option.some.injEq, isIdStart_ne hi5 (d := '{') (by decide), isIdStart_ne hi5 (d := '(') (by decide),
    isIdStart_ne hi5 (d := '~') (by decide), or_self, if_false]
  split
  · refine or_r ?_ rfl
    rw [decltypeId]
    refine bind_err (tag_word_err (v := "decltype") (c := '(') (cs := []) (by decide +kernel) (by decide +kernel)
      (by decide) ?_)
    rw [hw]
    exact hi2 _ (by simp [reserved])
  · split
    · refine or_r ?_ rfl
      rw [operatorId]
      refine bind_err ?_
      rw [operatorOverload]
      refine bind_err (keyword_err operatorWord ?_)
      rw [hw]
      exact hi2 _ (by simp [reserved])
    · rfl

theorem uid_destructor (s : Input) : unqualifiedId grammar ('~' :: s) = named grammar true s := by
  rw [unqualifiedId, P.byHead]
  simp only [List.head?_cons, Option.some.injEq, show ¬ ('~' = '{') by decide, show ¬ ('~' = '(') by decide,
    show ¬ ('~' = 'd') by decide, show ¬ ('~' = 'o') by decide, or_self, if_false, if_true]
  rw [P.bind_run, char_run]

theorem uid_prefix {d : Bool} {i s : Input} (hi : IsName i) (hs : idHead s = false) :
    unqualifiedId grammar ((if d then ['~'] else []) ++ (i ++ s)) = named grammar d (i ++ s) := by
  cases d
  · rw [if_neg (by simp), List.nil_append]; exact uid_named hi hs
  · exact uid_destructor _

theorem name_facts {d : Bool} {i : Input} (hi : IsName i) (s : Input) (hs : idHead s = false) :
    Starts ((if d then ['~'] else []) ++ (i ++ s)) ∧
    (s.head? ≠ some '\'' → NoQuote ((if d then ['~'] else []) ++ (i ++ s))) := by
  cases d
  · rw [if_neg (by simp), List.nil_append]
    refine ⟨Starts.ident hi.1 (fun w hw => hi.2 w ?_) hs, fun hq => noQuote_word hi.1.1 hs hq⟩
    simp [reserved, hw]
  · exact ⟨Starts.other (by simp), fun _ => noQuote_cons (by decide) (by decide)⟩

theorem name_head {d : Bool} {i : Input} (hi : IsName i) (s : Input) :
    ∃ c r, (if d then ['~'] else []) ++ (i ++ s) = c :: r ∧ c ≠ ':' ∧ (d = false → isIdStart c = true) := by
  obtain ⟨hi3, c, cs, hi4, hi5⟩ := id hi.1
  cases d
  · exact ⟨c, cs ++ s, by rw [hi4]; rfl, isIdStart_ne hi5 (by decide), fun _ => hi5⟩
  · exact ⟨'~', i ++ s, rfl, by decide, by simp⟩

theorem named_good {d : Bool} {i : Ident} (hi : IsName i) :
    UidGood (.named d i .none) ((if d then ['~'] else []) ++ i) := by
  refine ⟨fun r hr => ?_, fun r hr hq => ?_, ?_, fun _ r hr _ => ?_, fun e => (nomatch e)⟩
  · rw [List.append_assoc]; exact (name_facts hi r hr).1
  · rw [List.append_assoc]; exact (name_facts hi r hr).2 hq
  · obtain ⟨c, r, h1, h2, h3⟩ := name_head (d := d) hi []
    rw [List.append_nil] at h1
    refine ⟨c, r, h1, h2, ?_⟩
    intro e
    simp only [Ast.plain, Bool.not_eq_true'] at e
    exact h3 e
  · rw [List.append_assoc, uid_prefix hi hr.noId, named]
    exact bind_step (identifier_run hi.1 hr.noId) (bind_step (opt_none hr.noTemplate) rfl)

theorem namedT_good {d : Bool} {i : Ident} {b : List Char} {tp : Ast .tparams} {t : List Char}
    (hi : IsName i) (hb : Blank b) (ht : TparamsGood tp t) :
    UidGood (.named d i (.some tp)) ((if d then ['~'] else []) ++ i ++ b ++ t) := by
  obtain ⟨u, rfl⟩ := ht.head
  have hs : ∀ r, idHead (b ++ ('<' :: u ++ r)) = false := fun r => blank_idHead hb fun _ => rfl
  refine ⟨fun r hr => ?_, fun r hr hq => ?_, ?_, fun _ r hr _ => ?_, fun e => (nomatch e)⟩
  · simp only [List.append_assoc]; exact (name_facts hi _ (hs r)).1
  · simp only [List.append_assoc]
    refine (name_facts hi _ (hs r)).2 ?_
    cases b with
    | nil => simp
    | cons c b => exact blank_head hb (by simp) (by decide)
  · obtain ⟨c, r, h1, h2, h3⟩ := name_head (d := d) hi (b ++ '<' :: u)
    refine ⟨c, r, by simp only [List.append_assoc]; exact h1, h2, ?_⟩
    intro e
    simp only [Ast.plain, Bool.not_eq_true'] at e
    exact h3 e
  · simp only [List.append_assoc]
    rw [uid_prefix hi (hs r), named]
    refine bind_step (identifier_run hi.1 (hs r)) (bind_step (opt_some (a := tp) (r := r) ?_) rfl)
    refine bind_step (space0_run hb (NoSp.cons (by decide))) ?_
    refine bind_step (cv_none_run (keywords_noId cvTable_start rfl)) ?_
    exact ht.run r hr.noEq

theorem operator_starts {t : Input} {o : Ast .op} (h : OpText o t) (r : Input) :
    Starts ("operator".toList ++ (t ++ r)) := by
  refine Starts.ident ⟨operatorWord, 'o', "perator".toList, by decide +kernel, by decide⟩ ?_ (opText_idHead h)
  decide +kernel

theorem opText_noQuote {o : Ast .op} {t r : Input} (h : OpText o t) : (t ++ r).head? ≠ some '\'' := by
  cases h with
  | arith o ho =>
    cases o with
    | basic y t e => cases y <;> simp [ArithOp.text, Symbol.char]
    | deref s => simp [ArithOp.text]
    | spaceship => simp [ArithOp.text]
  | call => simp
  | index => simp
  | custom b b' i hb hb' hi =>
    cases b with
    | nil => simp
    | cons c b => simp only [List.append_assoc]; exact blank_head hb (by simp) (by decide)
  | newDelete b d a hb hne => simp only [List.append_assoc]; exact blank_head hb hne (by decide)
  | coAwait b hb hne => simp only [List.append_assoc]; exact blank_head hb hne (by decide)

theorem opText_noConv {o : Ast .op} {t : Input} {tp : Ast (.opt .tparams)} (h : OpText o t) :
    ¬ (Ast.opId o tp).uidConv = true := by
  cases h <;> simp [Ast.uidConv]

theorem opText_op {o : Ast .op} {t : Input} {tp : Ast (.opt .tparams)} (h : OpText o t) :
    (Ast.opId o tp).uidOp = true := by
  cases h <;> rfl

theorem operator_head {t : Input} : ∃ c r, "operator".toList ++ t = c :: r ∧ c ≠ ':' := by
  have : "operator".toList = 'o' :: "perator".toList := by decide +kernel
  exact ⟨'o', "perator".toList ++ t, by rw [this]; rfl, by decide⟩

theorem uid_operator {s r : Input} {x : Ast .op × Option (Ast .tparams)}
    (h : operatorOverload grammar ("operator".toList ++ s) = .ok r x) :
    unqualifiedId grammar ("operator".toList ++ s) = .ok r (.opId x.1 (Ast.ofOption x.2)) := by
  have hh : ("operator".toList ++ s).head? = some 'o' := by
    have : "operator".toList = 'o' :: "perator".toList := by decide +kernel
    rw [this]; rfl
  rw [unqualifiedId, P.byHead, hh]
  simp only [Option.some.injEq, show ¬ ('o' = '{') by decide, show ¬ ('o' = '(') by decide,
    show ¬ ('o' = 'd') by decide, or_self, if_false, if_true]
  exact or_l (bind_step h rfl)

theorem opId_good {o : Ast .op} {t : List Char} (h : OpText o t) (hl : o ≠ .arith (.basic .less true false)) :
    UidGood (.opId o .none) ("operator".toList ++ t) := by
  refine ⟨fun r hr => ?_, fun r hr hq => ?_, ?_, fun hc r hr hop => ?_, fun e => absurd e (opText_noConv h)⟩
  · rw [List.append_assoc]; exact operator_starts h r
  · rw [List.append_assoc]
    exact noQuote_word operatorWord (opText_idHead h) (opText_noQuote h)
  · obtain ⟨c, r, h1, h2⟩ := operator_head (t := t)
    exact ⟨c, r, h1, h2, by simp [Ast.plain]⟩
  · have := operator_run h hl hr.noId (hop (opText_op h))
    rw [List.append_assoc] at this ⊢
    exact uid_operator this

theorem opIdT_good {o : Ast .op} {t b : List Char} {tp : Ast .tparams} {tt : List Char} (h : OpText o t)
    (hb : Blank b) (ht : TparamsGood tp tt) :
    UidGood (.opId o (.some tp)) ("operator".toList ++ t ++ b ++ tt) := by
  refine ⟨fun r hr => ?_, fun r hr hq => ?_, ?_, fun hc r hr hop => ?_, fun e => absurd e (opText_noConv h)⟩
  · simp only [List.append_assoc]; exact operator_starts h _
  · simp only [List.append_assoc]
    exact noQuote_word operatorWord (opText_idHead h) (opText_noQuote h)
  · obtain ⟨c, r, h1, h2⟩ := operator_head (t := t ++ b ++ tt)
    exact ⟨c, r, by simpa only [List.append_assoc] using h1, h2, by simp [Ast.plain]⟩
  · have := operatorT_run h hb ht.head (ht.run r hr.noEq) (hop (opText_op h)).noSym
    simp only [List.append_assoc] at this ⊢
    exact uid_operator this

theorem opConv_good {a : Ast .ty} {b t : List Char} (hb : Blank b) (hne : b ≠ []) (h : TyGood a t)
    (ho : a.tyOp = false) : UidGood (.opId (.conversion a) .none) ("operator".toList ++ b ++ t) := by
  have hid : ∀ r, idHead (b ++ r) = false := fun r => blank_idHead hb fun e => absurd e hne
  refine ⟨fun r hr => ?_, fun r hr hq => ?_, ?_, fun e => (nomatch e), fun _ sp rest hsp hrest => ?_⟩
  · simp only [List.append_assoc]
    refine Starts.ident ⟨operatorWord, 'o', "perator".toList, by decide +kernel, by decide⟩ ?_ (hid _)
    decide +kernel
  · simp only [List.append_assoc]
    exact noQuote_word operatorWord (hid _) (blank_head hb hne (by decide))
  · obtain ⟨c, r, h1, h2⟩ := operator_head (t := b ++ t)
    exact ⟨c, r, by simpa only [List.append_assoc] using h1, h2, by simp [Ast.plain]⟩
  · simp only [List.append_assoc]
    exact uid_operator (conversion_run hb hne (h.starts _ (blank_idHead hsp fun _ => hrest.noId))
      (h.run sp rest hsp hrest fun e => by rw [ho] at e; cases e) hrest.noSp (hrest.ne (by decide)))

theorem anonId_good {a : Ast .anon} {t : Input} (hh : ∃ c u, t = c :: u ∧ (c = '(' ∨ c = '{'))
    (h : ∀ r, anonymous grammar (t ++ r) = .ok r a) : UidGood (.anonId a) t := by
  obtain ⟨c, u, rfl, hc⟩ := hh
  refine ⟨fun r hr => ?_, fun r hr hq => ?_, ?_, fun _ r hr _ => ?_, fun e => (nomatch e)⟩
  · exact Starts.other (by rcases hc with rfl | rfl <;> simp)
  · exact noQuote_cons (by rcases hc with rfl | rfl <;> decide) (by rcases hc with rfl | rfl <;> decide)
  · exact ⟨c, u, rfl, by rcases hc with rfl | rfl <;> decide, by simp [Ast.plain]⟩
  · rw [unqualifiedId, P.byHead]
    have : (c :: u ++ r).head? = some '{' ∨ (c :: u ++ r).head? = some '(' := by
      rcases hc with rfl | rfl <;> simp
    rw [if_pos this]
    exact bind_step (h r) rfl

/-! ## Qualified names -/

theorem functionSignature_err {s : Input} (h1 : ∀ u, s ≠ '(' :: u) (h2 : ∀ u, s ≠ "[abi:".toList ++ u) :
    functionSignature grammar s = .err := by
  rw [functionSignature]
  refine bind_step (opt_none (bind_err (tag_err h2))) (bind_err (spaced_err ?_))
  rw [parameterSet]
  refine bind_err (charSp_err ?_)
  cases s with
  | nil => simp
  | cons c r =>
    intro e
    simp only [List.head?_cons, Option.some.injEq] at e
    exact h1 r (by rw [e])

theorem reference_none {s : Input} (h : s.head? ≠ some '&') : parseReference s = .ok s .none := by
  rw [parseReference]
  exact mapOpt_run (many0_err (char_err h)) rfl

theorem cvOrRef_err {s : Input} (h1 : keywords cvTable s = .err) (h2 : s.head? ≠ some '&') :
    cvOrRef s = .err := by
  rw [cvOrRef]
  refine or_err (bind_err (verify_err (cv_none_run h1) (by decide))) (bind_err (verify_err (reference_none h2) (by decide)))

theorem skip_err {b s : Input} (hb : Blank b) (hs : NoSp s) (h : cvOrRef s = .err) :
    (do P.space0; cvOrRef : P Unit) (b ++ s) = .err := bind_step (space0_run hb hs) h

theorem colons_noSig (r : Input) : functionSignature grammar ("::".toList ++ r) = .err := by
  have e : "::".toList = [':', ':'] := by decide +kernel
  rw [e]
  apply functionSignature_err
  · intro u e'; simp at e'
  · intro u e'
    have : "[abi:".toList = '[' :: "abi:".toList := by decide +kernel
    rw [this] at e'; simp at e'

theorem colons_noSkip (r : Input) :
    P.many0 (do P.space0; cvOrRef : P Unit) ("::".toList ++ r) = .ok ("::".toList ++ r) [] := by
  have e : "::".toList = [':', ':'] := by decide +kernel
  rw [e]
  apply many0_err
  refine skip_err (b := []) Blank.nil (NoSp.cons (by decide)) (cvOrRef_err ?_ (by simp))
  exact keywords_noId cvTable_start rfl

theorem Stop.noKeyword {s : Input} (h : Stop s) {α : Type} {table : List (String × α)}
    (ht : ∀ e ∈ table, ∃ c cs, e.1.toList = c :: cs ∧ isIdStart c = true) : keywords table s = .err :=
  keywords_noId ht h.noId

theorem Stop.blank_noId {sp s : Input} (h : Stop s) (hsp : Blank sp) : idHead (sp ++ s) = false :=
  blank_idHead hsp fun _ => h.noId

theorem blank_noColon {b s : Input} (hb : Blank b) (hs : s.head? ≠ some ':') : (b ++ s).head? ≠ some ':' := by
  cases b with
  | nil => exact hs
  | cons c b => exact blank_head hb (by simp) (by decide)

theorem blank_noSig {b s : Input} (hb : Blank b) (hne : b ≠ []) : functionSignature grammar (b ++ s) = .err := by
  apply functionSignature_err
  · intro u e
    exact blank_head (s := s) hb hne (c := '(') (by decide) (by rw [e]; rfl)
  · intro u e
    refine blank_head (s := s) hb hne (c := '[') (by decide) ?_
    have : "[abi:".toList = '[' :: "abi:".toList := by decide +kernel
    rw [e, this]; rfl

theorem colon_tag {s : Input} (h : s.head? ≠ some ':') : P.tag "::" s = .err :=
  tag_err_head (c := ':') (cs := [':']) (by decide +kernel) h

/-- The end of a type or value, after blanks. -/
theorem Stop.nameEnd {sp s : Input} (h : Stop s) (hsp : Blank sp) : NameEnd (sp ++ s) := by
  have hc : keywords cvTable s = .err := h.noKeyword cvTable_start
  refine ⟨⟨h.blank_noId hsp, ?_, NoEq.blank hsp h.noEq⟩, ?_⟩
  · refine bind_step (space0_run hsp h.noSp) (bind_step (cv_none_run hc) ?_)
    exact templateParameters_err (h.ne (by decide))
  · rw [scopeEnd]
    refine bind_step (r := sp ++ s) (a := none) (opt_none ?_) ?_
    · cases sp with
      | nil =>
        apply functionSignature_err
        · rintro u rfl; exact h.ne (d := '(') (by decide) rfl
        · rintro u rfl
          refine h.ne (d := '[') (by decide) ?_
          have : "[abi:".toList = '[' :: "abi:".toList := by decide +kernel
          rw [this]; rfl
      | cons c b => exact blank_noSig hsp (by simp)
    refine bind_step (many0_err (skip_err hsp h.noSp (cvOrRef_err hc (h.ne (by decide))))) ?_
    exact bind_err (colon_tag (blank_noColon hsp (h.ne (by decide))))

theorem scope_good {u : Ast .uid} {t : Input} (h : UidGood u t) (huc : u.uidConv = false) : ScopeGood (.scope u .none) (t ++ "::".toList) := by
  have e : "::".toList = [':', ':'] := by decide +kernel
  have hid : ∀ r, idHead ("::".toList ++ r) = false := fun r => by rw [e]; rfl
  refine ⟨fun r => ?_, fun r => ?_, ?_, fun r => ?_⟩
  · rw [List.append_assoc]; exact h.starts _ (hid r)
  · rw [List.append_assoc]; exact h.noQuote _ (hid r) (by rw [e]; simp)
  · obtain ⟨c, v, h1, h2, h3⟩ := h.head
    refine ⟨c, v ++ "::".toList, by rw [h1]; rfl, h2, ?_⟩
    exact h3
  · rw [List.append_assoc, scopeOrUid]
    refine bind_step (h.run huc _ ?_ fun _ => ?_) (bind_step (opt_some (a := none) (r := r) ?_) rfl)
    · rw [e]; exact UidEnd.of (by decide) (by decide) (by decide)
    · rw [e]; exact OpEnd.of (by decide) (by decide) (Or.inl (by decide))
    · rw [scopeEnd]
      refine bind_step (opt_none (colons_noSig r)) (bind_step (colons_noSkip r) ?_)
      exact bind_step (tag_run _ _) rfl

theorem scopeSig_good {u : Ast .uid} {t : Input} {sg : Ast .sig} {st b : Input} (h : UidGood u t)
    (huc : u.uidConv = false) (hs : SigGood sg st) (htr : sg.trails = false) (hb : Blank b) : ScopeGood (.scope u (.some sg)) (t ++ st ++ b ++ "::".toList) := by
  have e : "::".toList = [':', ':'] := by decide +kernel
  have hq : ∀ r, (st ++ r).head? ≠ some '\'' := by
    intro r
    rcases hs.cases with ⟨u, rfl⟩ | ⟨u, rfl⟩ <;> simp
  refine ⟨fun r => ?_, fun r => ?_, ?_, fun r => ?_⟩
  · simp only [List.append_assoc]; exact h.starts _ (hs.uidEnd _).noId
  · simp only [List.append_assoc]; exact h.noQuote _ (hs.uidEnd _).noId (hq _)
  · obtain ⟨c, v, h1, h2, h3⟩ := h.head
    refine ⟨c, v ++ (st ++ (b ++ "::".toList)), by rw [h1]; simp only [List.append_assoc, List.cons_append], h2, ?_⟩
    exact h3
  · simp only [List.append_assoc]
    rw [scopeOrUid]
    refine bind_step (h.run huc _ (hs.uidEnd _) fun _ => hs.opEnd _) (bind_step (opt_some (a := some sg) (r := r) ?_) rfl)
    rw [scopeEnd]
    refine bind_step (opt_some (hs.run b ("::".toList ++ r) hb ?_ fun e' => by rw [htr] at e'; cases e')) (bind_step (colons_noSkip r) ?_)
    · intro c v e'
      rw [e] at e'
      cases e'; decide
    · exact bind_step (tag_run _ _) rfl

theorem scopesNil_good : ScopesGood .nil [] :=
  ⟨fun _ => rfl, fun h => absurd rfl h, fun h => absurd rfl h, fun h => absurd rfl h, fun s r l' o h => by
    simpa only [Ast.items, List.nil_append] using h⟩

theorem scopesCons_good {a : Ast .scope} {t : Input} {l : Ast (.list .scope)} {tl : Input}
    (h : ScopeGood a t) (hl : ScopesGood l tl) : ScopesGood (.cons a l) (t ++ tl) := by
  refine ⟨fun e => (nomatch e), fun _ r => ?_, fun _ r => ?_, fun _ => ?_, fun s r l' o hp => ?_⟩
  · rw [List.append_assoc]; exact h.starts _
  · rw [List.append_assoc]; exact h.noQuote _
  · obtain ⟨c, u, h1, h2, h3⟩ := h.head
    exact ⟨c, u ++ tl, by rw [h1]; rfl, h2, h3⟩
  · rw [List.append_assoc, protoLoop, h.run]
    have hne : (tl ++ s).length < (t ++ (tl ++ s)).length := by
      obtain ⟨c, u, h1, -⟩ := h.head
      rw [h1]; simp only [List.cons_append, List.length_cons, List.length_append]; omega
    simp only [hne, if_true]
    rw [hl.run s r l' o hp]
    simp only [Ast.items, List.cons_append]

theorem path_good {rooted : Bool} {l : Ast (.list .scope)} {t : Input} (h : ScopesGood l t)
    (hlen : l.len < 256) : PathGood (.path rooted l) ((if rooted then "::".toList else []) ++ t) := by
  have e : "::".toList = [':', ':'] := by decide +kernel
  refine ⟨fun s hs => ?_, fun s hs => ?_, fun s r s' u hc hp => ?_⟩
  · cases rooted
    · by_cases hl : l = .nil
      · rw [h.nil hl]; exact hs
      · exact h.starts hl s
    · rw [if_pos rfl, e]; exact Starts.other (by simp)
  · cases rooted
    · by_cases hl : l = .nil
      · rw [h.nil hl]; exact hs
      · exact h.noQuote hl s
    · rw [if_pos rfl, e]; exact noQuote_cons (by decide) (by decide)
  · have hrun := h.run s r [] (some (s', u)) hp
    rw [List.append_nil] at hrun
    rw [protoIdExpression]
    cases rooted
    · refine bind_step (r := t ++ s) (a := none) (opt_none (tag_err_head (c := ':') (cs := [':']) e ?_)) ?_
      · rw [if_neg (by simp), List.nil_append]
        by_cases hl : l = .nil
        · rw [h.nil hl]; exact hc
        · obtain ⟨c, v, h1, h2, -⟩ := h.head hl
          rw [h1]
          simpa using h2
      · refine bind_step (p := protoLoop (scopeOrUid grammar)) hrun ?_
        exact bind_step (internSeq_run (bits := 8) l hlen r) rfl
    · rw [if_pos rfl, List.append_assoc]
      refine bind_step (opt_some (tag_run _ _)) ?_
      refine bind_step (p := protoLoop (scopeOrUid grammar)) hrun ?_
      exact bind_step (internSeq_run (bits := 8) l hlen r) rfl

theorem idExpr_good {p : Ast .path} {pt : Input} {u : Ast .uid} {ut : Input} (hp : PathGood p pt)
    (hu : UidGood u ut) : IdGood (.idExpr p u) (pt ++ ut) := by
  have key : ∀ s r, unqualifiedId grammar (ut ++ s) = .ok r u → scopeEnd grammar r = .err →
      idExpression grammar (pt ++ (ut ++ s)) = .ok r (.idExpr p u) := by
    intro s r h1 h2
    rw [idExpression]
    refine bind_step (hp.run _ r (ut ++ s) u ?_ ?_) rfl
    · obtain ⟨c, v, h1, h2, -⟩ := hu.head
      rw [h1]; simpa using h2
    · rw [protoLoop]
      have : scopeOrUid grammar (ut ++ s) = .ok r (.inr u) := by
        rw [scopeOrUid]
        exact bind_step h1 (bind_step (opt_none h2) rfl)
      rw [this]
  refine ⟨fun r hr => ?_, fun r hr hq => ?_, fun huc r hr hop => ?_, fun huc sp rest hsp hrest => ?_⟩
  · rw [List.append_assoc]; exact hp.starts _ (hu.starts r hr)
  · rw [List.append_assoc]; exact hp.noQuote _ (hu.noQuote r hr hq)
  · rw [List.append_assoc]
    exact key r r (hu.run huc r hr.toUidEnd hop) hr.noScope
  · rw [List.append_assoc]
    exact key (sp ++ rest) rest (hu.conv huc sp rest hsp hrest) (hrest.nameEnd (sp := []) Blank.nil).noScope

/-! ## Simple types -/

theorem legacyText_words {n : LegacyName} {t : Input} (h : LegacyText n t) :
    ∃ w ws, (∀ v ∈ w :: ws, v ∈ legacyWords) ∧ Words (w :: ws) t := by
  obtain ⟨ws, ⟨sp, hsp, hp⟩, hw⟩ := h
  obtain ⟨h1, h2, -⟩ := spell_build n sp hsp
  have hws : ∀ w ∈ ws, w ∈ legacyWords := fun w hw => h1 w (hp.subset hw)
  cases ws with
  | nil => exact absurd (List.nil_perm.1 hp) h2
  | cons w ws => exact ⟨w, ws, hws, hw⟩

theorem words_head {w : String} {ws : List String} {t : Input} (h : Words (w :: ws) t) :
    ∃ u, t = w.toList ++ u ∧ (∀ r, idHead r = false → idHead (u ++ r) = false) := by
  cases h with
  | one => exact ⟨[], by simp, fun r hr => hr⟩
  | cons _ b w' ws t hb hne ht =>
    refine ⟨b ++ t, by simp only [List.append_assoc], fun r _ => ?_⟩
    rw [List.append_assoc]
    exact blank_idHead hb fun e => absurd e hne

theorem legacyWords_id : ∀ w ∈ legacyWords, ∀ c ∈ w.toList, isIdCont c = true := by decide +kernel
theorem cvWords_id : ∀ w ∈ cvWords, ∀ c ∈ w.toList, isIdCont c = true := by decide +kernel

theorem legacyText_word {n : LegacyName} {t r : Input} (h : LegacyText n t) (hr : idHead r = false) :
    ∃ w ∈ legacyWords, word (t ++ r) = w.toList ∧ ∃ u, t ++ r = w.toList ++ u := by
  obtain ⟨w, ws, h1, h2⟩ := legacyText_words h
  obtain ⟨u, rfl, hu⟩ := words_head h2
  refine ⟨w, h1 w (by simp), ?_, u ++ r, by rw [List.append_assoc]⟩
  rw [List.append_assoc]
  exact word_append (legacyWords_id w (h1 w (by simp))) (hu r hr)

theorem TStarts.ofWord {s : Input} {w : String} {u : Input} (hs : s = w.toList ++ u) (hw : Cpp.word s = w.toList)
    (h1 : ∀ v ∈ "__attribute__" :: noType, w ≠ v)
    (h2 : ∃ c cs, w.toList = c :: cs ∧ isIdStart c = true) : TStarts s := by
  refine ⟨⟨fun v hv => ?_, ?_⟩, ?_⟩
  · rw [hw]
    intro e
    exact h1 v (List.mem_cons_of_mem _ hv) (String.toList_injective e)
  rotate_left
  · rw [hw]
    intro e
    exact h1 _ (by simp) (String.toList_injective e)
  · obtain ⟨c, cs, h3, h4⟩ := h2
    exact ⟨c, cs ++ u, by rw [hs, h3]; rfl, Or.inl h4⟩

theorem legacyWords_start : ∀ w ∈ legacyWords, ∃ c cs, w.toList = c :: cs ∧ isIdStart c = true := by
  have h : ∀ w ∈ legacyWords, (match w.toList with | c :: _ => isIdStart c | [] => false) = true := by decide +kernel
  intro w hw
  have := h w hw
  cases hx : w.toList with
  | nil => rw [hx] at this; cases this
  | cons c cs => rw [hx] at this; exact ⟨c, cs, rfl, this⟩

theorem legacy_good {n : LegacyName} {t : Input} (h : LegacyText n t) : SimpleGood (.stLegacy n) t := by
  refine ⟨fun r hr => ?_, fun r hr => ?_, fun sp rest hsp hrest hend hk _ _ => ?_⟩
  · obtain ⟨w, h1, h2, u, h3⟩ := legacyText_word h hr
    refine TStarts.ofWord h3 h2 ?_ (legacyWords_start w h1)
    clear h2 h3; revert w; decide +kernel
  · obtain ⟨w, h1, h2, u, h3⟩ := legacyText_word h hr
    apply keywords_err cvTable_good
    rw [h2]
    have : ∀ w ∈ legacyWords, ∀ e ∈ cvTable, w.toList ≠ e.1.toList := by decide +kernel
    exact this w h1
  · have hid : idHead rest = true → sp ≠ [] := by
      rintro h1 rfl
      have := hend.noId
      rw [List.nil_append, h1] at this; cases this
    refine spaced_run (b := []) ?_ Blank.nil hrest
    rw [simpleType, ← List.append_assoc]
    exact or_l (or_l (bind_step (legacyText_run h hsp hrest hid hk) rfl))

theorem autoText (n : Nat) (r : Input) :
    "auto:".toList ++ digits n ++ r = "auto".toList ++ (':' :: (digits n ++ r)) := by
  have : "auto:".toList = "auto".toList ++ [':'] := by decide +kernel
  rw [this]; simp only [List.append_assoc, List.cons_append, List.nil_append]

theorem autoWord (r : Input) : word ("auto".toList ++ (':' :: r)) = "auto".toList :=
  word_append (by decide +kernel) rfl

theorem auto_good {n : Nat} (hn : n < 2 ^ 32) : SimpleGood (.stAuto n) ("auto:".toList ++ digits n) := by
  refine ⟨fun r hr => ?_, fun r hr => ?_, fun sp rest hsp hrest hend hk _ _ => ?_⟩
  · rw [autoText]
    refine TStarts.ofWord rfl (autoWord _) (by decide) ⟨'a', "uto".toList, by decide +kernel, by decide⟩
  · rw [autoText]
    apply keywords_err cvTable_good
    rw [autoWord]
    decide +kernel
  · refine spaced_run (b := sp) ?_ hsp hrest
    rw [simpleType]
    refine or_l (or_r (bind_err (legacy_err (keywords_err legacyTable_good ?_))) ?_)
    · rw [autoText, autoWord]; decide +kernel
    · rw [List.append_assoc]
      exact bind_step (tag_run _ _) (bind_step (uint_run hn (noDigit_of_idHead hend.noId)) rfl)

theorem Starts.auto {s : Input} (h : Starts s) : P.tag "auto:" s = .err :=
  tag_word_err (v := "auto") (c := ':') (cs := []) (by decide +kernel) (by decide +kernel) (by decide)
    (h.word _ (by decide +kernel))

theorem IdGood.either {i : Ast .idExpr} {t sp rest : Input} (h : IdGood i t) (hsp : Blank sp)
    (hend : NameEnd (sp ++ rest)) (hop : i.idOp = true → sp = [] ∧ OpEnd rest) (hcv : i.idConv = true → Stop rest) :
    ∃ b, Blank b ∧ idExpression grammar (t ++ (sp ++ rest)) = .ok (b ++ rest) i := by
  cases hx : i.idConv with
  | false =>
    refine ⟨sp, hsp, h.run hx _ hend fun ho => ?_⟩
    obtain ⟨rfl, h2⟩ := hop ho
    exact h2
  | true => exact ⟨[], Blank.nil, h.conv hx sp rest hsp (hcv hx)⟩

theorem stId_good {i : Ast .idExpr} {t : Input} (h : IdGood i t) : SimpleGood (.stId i) t := by
  refine ⟨fun r hr => (h.starts r hr).t, fun r hr => (h.starts r hr).cv,
    fun sp rest hsp hrest hend hk hop hcv => ?_⟩
  have hst := h.starts _ hend.noId
  obtain ⟨b, hb, hrun⟩ := h.either hsp hend hop hcv
  refine spaced_run (b := b) ?_ hb hrest
  rw [simpleType]
  refine or_r (or_err (bind_err (legacy_err hst.legacy)) (bind_err hst.auto)) ?_
  refine bind_step (opt_none (bind_err hst.elaborated)) ?_
  exact bind_step hrun rfl

theorem elaboratedWords_id : ∀ w ∈ ["typename", "class", "struct", "enum", "union"],
    (∀ c ∈ w.toList, isIdCont c = true) := by decide +kernel

theorem elaborated_good {i : Ast .idExpr} {t b : Input} {w : String}
    (hw : w ∈ ["typename", "class", "struct", "enum", "union"]) (hb : Blank b) (hne : b ≠ [])
    (h : IdGood i t) : SimpleGood (.stId i) (w.toList ++ b ++ t) := by
  have hid : ∀ r, idHead (b ++ r) = false := fun r => blank_idHead hb fun e => absurd e hne
  have hwd : ∀ r, word (w.toList ++ (b ++ (t ++ r))) = w.toList := fun r =>
    word_append (elaboratedWords_id w hw) (hid _)
  refine ⟨fun r hr => ?_, fun r hr => ?_, fun sp rest hsp hrest hend hk hop hcv => ?_⟩
  · simp only [List.append_assoc]
    refine TStarts.ofWord rfl (hwd r) ?_ ?_
    · clear hwd; revert w; decide +kernel
    · have : ∀ w ∈ ["typename", "class", "struct", "enum", "union"],
        (match w.toList with | c :: _ => isIdStart c | [] => false) = true := by decide +kernel
      have := this w hw
      cases hx : w.toList with
      | nil => rw [hx] at this; cases this
      | cons c cs => rw [hx] at this; exact ⟨c, cs, rfl, this⟩
  · simp only [List.append_assoc]
    apply keywords_err cvTable_good
    rw [hwd]
    clear hwd; revert w; decide +kernel
  · have hst := h.starts _ hend.noId
    obtain ⟨b', hb', hrun⟩ := h.either hsp hend hop hcv
    refine spaced_run (b := b') ?_ hb' hrest
    simp only [List.append_assoc]
    have hk : keywords elaboratedTable (w.toList ++ (b ++ (t ++ (sp ++ rest)))) =
        .ok (b ++ (t ++ (sp ++ rest))) () := by
      have hm : ∀ w ∈ ["typename", "class", "struct", "enum", "union"], (w, ()) ∈ elaboratedTable := by decide
      exact keywords_word elaboratedTable_good (hm w hw) (idHead_false (hid _))
    rw [simpleType]
    refine or_r (or_err (bind_err (legacy_err (keywords_err legacyTable_good ?_)))
      (bind_err (tag_word_err (v := "auto") (c := ':') (cs := []) (by decide +kernel) (by decide +kernel) (by decide) ?_))) ?_
    · rw [hwd]; clear hwd hk; revert w; decide +kernel
    · rw [hwd]; clear hwd hk; revert w; decide +kernel
    refine bind_step (opt_some (bind_step hk (space1_run hb hne hst.noSp))) ?_
    exact bind_step hrun rfl

/-! ## Types -/

theorem DeclsGood.noSp {l : Ast (.list .declop)} {t : Input} (h : DeclsGood l t) (hl : l ≠ .nil) (r : Input) :
    NoSp (t ++ r) := by
  obtain ⟨c, u, rfl, hc, -⟩ := h.head hl
  exact NoSp.cons hc

theorem DeclsGood.nameEnd {l : Ast (.list .declop)} {t b sp rest : Input} (h : DeclsGood l t)
    (hl : l ≠ .nil) (hb : Blank b) (hid : idHead t = true → b ≠ []) (hsp : Blank sp) (hrest : Stop rest) :
    NameEnd (b ++ (t ++ (sp ++ rest))) := by
  obtain ⟨c, u, hcu, hc1, hc2⟩ := h.head hl
  have hns := h.noSp hl (sp ++ rest)
  refine ⟨⟨?_, ?_, ?_⟩, ?_⟩
  · refine blank_idHead hb fun hbe => ?_
    have h1 : idHead t = false := by
      cases hx : idHead t with
      | false => rfl
      | true => exact absurd hbe (hid hx)
    rw [hcu] at h1 ⊢
    exact h1
  · exact bind_step (space0_run hb hns) (h.noTemplate hl sp rest hsp hrest)
  · refine NoEq.blank hb ?_
    rw [hcu]
    refine NoEq.other ?_ ?_ <;> (rintro rfl; exact hc2 (by simp))
  · rw [scopeEnd]
    have hsk : ∀ s, (∃ r k, P.many0 (do P.space0; cvOrRef : P Unit) s = .ok r k ∧ r.head? ≠ some ':') →
        ∀ x, (do let _ ← P.many0 (do P.space0; cvOrRef : P Unit); P.tag "::"; pure x : P (Option (Ast .sig))) s = .err := by
      rintro s ⟨r, k, h1, h2⟩ x
      exact bind_step h1 (bind_err (colon_tag h2))
    by_cases hbe : b = []
    · subst hbe
      rcases h.sig sp rest hsp hrest with h1 | ⟨sg, h1⟩
      · exact bind_step (opt_none h1) (hsk _ (h.skip [] sp rest hb hsp hrest) _)
      · refine bind_step (opt_some h1) (hsk _ ⟨rest, [], ?_, hrest.ne (by decide)⟩ _)
        refine many0_err (skip_err (b := []) Blank.nil hrest.noSp (cvOrRef_err ?_ (hrest.ne (by decide))))
        exact hrest.noKeyword cvTable_start
    · exact bind_step (opt_none (blank_noSig hb hbe)) (hsk _ (h.skip b sp rest hb hsp hrest) _)

theorem cvText_nil {cv : CV} (h : CvText cv []) : cv = CV.none := by
  obtain ⟨ws, h1, h2, h3⟩ := h
  have : ws = [] := (words_nil_iff h2 (fun w hw => by
    obtain ⟨c, cs, h4, -⟩ := cvWords_long w (h1 w hw)
    rw [h4]; simp)).2 rfl
  rw [h3, this]; rfl

theorem cvText_word {cv : CV} {t : Input} (h : CvText cv t) (hne : t ≠ []) :
    ∃ w ∈ cvWords, ∃ u, t = w.toList ++ u ∧ ∀ r, idHead r = false → idHead (u ++ r) = false := by
  obtain ⟨ws, h1, h2, h3⟩ := h
  cases ws with
  | nil => cases h2; exact absurd rfl hne
  | cons w ws =>
    obtain ⟨u, h4, h5⟩ := words_head h2
    exact ⟨w, h1 w (by simp), u, h4, h5⟩

theorem cvWords_start : ∀ w ∈ cvWords, ∃ c cs, w.toList = c :: cs ∧ (c = 'c' ∨ c = 'v') := by
  intro w hw
  simp only [cvWords, cvTable, List.map_cons, List.map_nil, List.mem_cons, List.not_mem_nil, or_false] at hw
  rcases hw with rfl | rfl
  · exact ⟨'c', "onst".toList, by decide +kernel, Or.inl rfl⟩
  · exact ⟨'v', "olatile".toList, by decide +kernel, Or.inr rfl⟩

theorem cvText_starts {cv : CV} {t r : Input} (h : CvText cv t) (hne : t ≠ []) (hr : idHead r = false) :
    TStarts (t ++ r) := by
  obtain ⟨w, h1, u, rfl, h2⟩ := cvText_word h hne
  rw [List.append_assoc]
  refine TStarts.ofWord rfl (word_append (cvWords_id w h1) (h2 r hr)) ?_ ?_
  · clear h2 h hne; revert w; decide +kernel
  · obtain ⟨c, cs, h3, h4⟩ := cvWords_start w h1
    exact ⟨c, cs, h3, by rcases h4 with rfl | rfl <;> decide⟩

theorem ty_good {cv : CV} {ct b1 : Input} {simple : Ast .simple} {st b2 : Input}
    {decl : Ast (.list .declop)} {dt : Input}
    (hcv : CvText cv ct) (hb1 : Blank b1) (hcb : ct = [] ↔ b1 = []) (hs : SimpleGood simple st)
    (hb2 : Blank b2) (hd : DeclsGood decl dt) (hnil : decl = .nil → b2 = [])
    (hid : idHead dt = true → b2 ≠ [])
    (hop : simple.simpleOp = true → b2 = [] ∧ (decl.first = none ∨ decl.first = some .fn))
    (hcc : simple.simpleConv = true → decl = .nil) :
    TyGood (.ty .nil cv simple decl) (ct ++ b1 ++ st ++ b2 ++ dt) := by
  have hsid : ∀ r, idHead r = false → idHead (b2 ++ (dt ++ r)) = false := by
    intro r hr
    refine blank_idHead hb2 fun hbe => ?_
    have h1 : idHead dt = false := by
      cases hx : idHead dt with
      | false => rfl
      | true => exact absurd hbe (hid hx)
    cases dt with
    | nil => exact hr
    | cons c u => exact h1
  have hstarts : ∀ r, idHead r = false → TStarts (ct ++ (b1 ++ (st ++ (b2 ++ (dt ++ r))))) := by
    intro r hr
    by_cases hct : ct = []
    · rw [hct, hcb.1 hct]
      exact hs.starts _ (hsid r hr)
    · refine cvText_starts hcv hct (blank_idHead hb1 fun e => absurd (hcb.2 e) hct)
  refine ⟨fun r hr => ?_, fun _ r hr => ?_, fun sp rest hsp hrest htop => ?_⟩
  · simp only [List.append_assoc]; exact (hstarts r hr).toAStarts
  · simp only [List.append_assoc]; exact hstarts r hr
  simp only [List.append_assoc]
  have hri : idHead (sp ++ rest) = false := hrest.blank_noId hsp
  have hst := hstarts _ hri
  have hst2 := hs.starts _ (hsid _ hri)
  have hcv2 := hs.cv _ (hsid _ hri)
  rw [typeLike_eq, stepTypeLike]
  refine bind_step (r := ct ++ (b1 ++ (st ++ (b2 ++ (dt ++ (sp ++ rest)))))) (a := .nil) ?_ ?_
  · refine spaced_run (b := []) ?_ Blank.nil hst.noSp
    rw [attributes]
    exact bind_step (opt_none (bind_err hst.attribute)) (internSeq_nil _)
  refine bind_step (r := st ++ (b2 ++ (dt ++ (sp ++ rest)))) (a := cv) ?_ ?_
  · refine spaced_run (b := []) ?_ Blank.nil hst2.noSp
    by_cases hct : ct = []
    · rw [hct, hcb.1 hct]
      rw [hct] at hcv
      rw [cvText_nil hcv]
      exact cv_none_run hcv2
    · have := cv_run hcv hb1 (fun e => absurd e hct) hst2.noSp (fun _ e => hct (hcb.2 e)) hcv2 (fun _ => trivial)
      rw [List.append_assoc] at this
      exact this
  by_cases hn : decl = .nil
  · subst hn
    have hdt : dt = [] := hd.nil rfl
    have hb2' : b2 = [] := hnil rfl
    subst hdt; subst hb2'
    simp only [List.nil_append]
    refine bind_step (hs.run sp rest hsp hrest.noSp (hrest.nameEnd hsp) (hrest.noKeyword legacyTable_start) ?_ fun _ => hrest) ?_
    · intro ho
      exact htop (by simp [Ast.tyOp, Ast.isNil, ho])
    · rw [stepDeclarator]
      have := hd.run [] rest Blank.nil hrest (fun _ => rfl)
      simp only [List.nil_append] at this
      exact bind_step (bind_step this (internSeq_run (bits := 8) _ hd.len rest)) rfl
  · refine bind_step (hs.run b2 (dt ++ (sp ++ rest)) hb2 (hd.noSp hn _) (hd.nameEnd hn hb2 hid hsp hrest)
      (hd.words hn _ hri).1 ?_ fun e => absurd (hcc e) hn) ?_
    · intro ho
      obtain ⟨h1, h2⟩ := hop ho
      exact ⟨h1, hd.opEnd h2 sp rest hsp hrest fun e => absurd e hn⟩
    · rw [stepDeclarator]
      exact bind_step (bind_step (hd.run sp rest hsp hrest fun e => absurd e hn)
        (internSeq_run (bits := 8) _ hd.len rest)) rfl

/-! ## Attributes -/

structure ArgsGood (l : Ast (.list .value)) (t : Input) : Prop where
  run : ∀ r, functionCall grammar (t ++ r) = .ok r l
  paren : ∃ u, t = '(' :: u
  params : ∀ p : Ast (.list .ty), AsType l p → ∀ r, parameterSet grammar (t ++ r) = .ok r (p, false)
  refused : Refused l → ∀ r, parameterSet grammar (t ++ r) = .err

/-- What follows the attributes of a type. -/
def typeBody (l : Ast (.list .value)) : P (Ast .ty) := do
  let cv ← spaced parseCv
  let st ← spaced (simpleType grammar)
  let d ← stepDeclarator grammar
  pure (.ty l cv st d)

theorem typeBody_attr {l l' : Ast (.list .value)} {cv : CV} {st : Ast .simple} {d : Ast (.list .declop)} {s r : Input}
    (h : typeBody l s = .ok r (.ty l cv st d)) : typeBody l' s = .ok r (.ty l' cv st d) := by
  rw [typeBody] at h ⊢
  obtain ⟨r1, cv', h1, h⟩ := bind_inv h
  obtain ⟨r2, st', h2, h⟩ := bind_inv h
  obtain ⟨r3, d', h3, h⟩ := bind_inv h
  rw [P.pure_run] at h
  simp only [Res.ok.injEq, Ast.ty.injEq, true_and] at h
  obtain ⟨rfl, rfl, rfl, rfl⟩ := h
  exact bind_step h1 (bind_step h2 (bind_step h3 rfl))

theorem attrWord : ∀ c ∈ "__attribute__".toList, isIdCont c = true := by decide +kernel

theorem attrText : "__attribute__(".toList = "__attribute__".toList ++ ['('] := by decide +kernel

theorem tyAttr_good {l : Ast (.list .value)} {t b : Input} {cv : CV} {simple : Ast .simple}
    {decl : Ast (.list .declop)} {tt : Input} (hl : ArgsGood l t) (hb : Blank b)
    (h : TyGood (.ty .nil cv simple decl) tt) (hne : l ≠ .nil) :
    TyGood (.ty l cv simple decl) ("__attribute__(".toList ++ t ++ ')' :: b ++ tt) := by
  have et : ∀ r, "__attribute__(".toList ++ t ++ ')' :: b ++ tt ++ r =
      "__attribute__(".toList ++ (t ++ ')' :: (b ++ (tt ++ r))) := by
    intro r; simp only [List.append_assoc, List.cons_append]
  have hst : ∀ r, AStarts ("__attribute__(".toList ++ t ++ ')' :: b ++ tt ++ r) := by
    intro r
    rw [et, attrText, List.append_assoc]
    have hw : word ("__attribute__".toList ++ (['('] ++ (t ++ ')' :: (b ++ (tt ++ r))))) = "__attribute__".toList :=
      word_append attrWord rfl
    refine ⟨fun w hw' => ?_, '_', "_attribute__".toList ++ (['('] ++ (t ++ ')' :: (b ++ (tt ++ r)))), ?_, Or.inl (by decide)⟩
    · rw [hw]; revert w; decide +kernel
    · have : "__attribute__".toList = '_' :: "_attribute__".toList := by decide +kernel
      rw [this]; rfl
  refine ⟨fun r _ => hst r, fun e r hr => ?_, fun sp rest hsp hrest htop => ?_⟩
  · exfalso
    cases l with
    | nil => exact hne rfl
    | cons a l => simp [Ast.noAttr, Ast.isNil] at e
  · have hi := h.noAttr rfl (sp ++ rest) (hrest.blank_noId hsp)
    have hr := h.run sp rest hsp hrest htop
    rw [et, typeLike_eq, stepTypeLike]
    refine bind_step (r := tt ++ (sp ++ rest)) (a := l) ?_ ?_
    · refine spaced_run (b := b) ?_ hb hi.noSp
      rw [attributes]
      exact bind_step (opt_some (bind_step (tag_run _ _) (bind_step (hl.run _) (bind_step (char_run _ _) rfl)))) rfl
    · show typeBody l (tt ++ (sp ++ rest)) = _
      apply typeBody_attr (l := .nil)
      rw [typeLike_eq, stepTypeLike] at hr
      obtain ⟨r1, l', h1, h2⟩ := bind_inv hr
      have h3 : spaced (attributes grammar) (tt ++ (sp ++ rest)) = .ok (tt ++ (sp ++ rest)) .nil := by
        refine spaced_run (b := []) ?_ Blank.nil hi.noSp
        rw [attributes]
        exact bind_step (opt_none (bind_err hi.attribute)) (internSeq_nil _)
      rw [h3] at h1
      simp only [Res.ok.injEq] at h1
      obtain ⟨rfl, rfl⟩ := h1
      exact h2

end Verif.Cpp
