import Verif.Trace.ArgParse

/-!
# Property C90: what the argument of an unknown activity is taken for

Activities which crofiler does not know (new versions of clang) have no declared kind of argument:
`ActivityArgumentType::infer_from_detail` guesses it from the text.  This file says exactly which
texts are taken for symbols, loops, paths, plain text and C++ entities.
-/

set_option autoImplicit false
set_option linter.unusedSectionVars false
set_option linter.unusedVariables false
set_option linter.unusedSimpArgs false

namespace Verif.Trace

/-! ## Specification -/

/-- A word which information text may contain: `&`, `memcmp()`, or nothing but letters and digits,
plus, away from both ends, `-`, `/`, `>` after `-`, and `_` after an uppercase letter other than the
first one. -/
def PlainWord (cc : CharClass) (w : List Char) : Prop :=
  w = ['&'] ∨ w = ['m', 'e', 'm', 'c', 'm', 'p', '(', ')'] ∨
  ∀ l c r, w = l ++ c :: r → cc.alnum c = true ∨
    (l ≠ [] ∧ r ≠ [] ∧
      (c = '-' ∨ c = '/' ∨
       (c = '>' ∧ ∃ l', l' ≠ [] ∧ l = l' ++ ['-']) ∨
       (c = '_' ∧ ∃ l' u, l' ≠ [] ∧ l = l' ++ [u] ∧ cc.upper u = true)))

/-- Information text: words separated by single spaces, the first one with an uppercase initial. -/
def PlainText (cc : CharClass) (d : String) : Prop :=
  (∃ c r, d.toList = c :: r ∧ cc.upper c = true) ∧
  ∃ ws : List (List Char), d.toList = [' '].intercalate ws ∧ ws ≠ [] ∧
    ∀ w ∈ ws, ' ' ∉ w ∧ PlainWord cc w

/-- The name of a symbol, as clang emits them, possibly in parentheses. -/
def NamesSymbol (d : String) : Prop :=
  ∃ s, Bare d s ∧ (s = "main" ∨ s = "__clang_call_terminate" ∨
    ∃ r, s = "_Z" ++ r ∨ s = "__cxx_global_var_init" ++ r ∨ s = "_GLOBAL__sub_I_" ++ r)

/-- What a text is taken for. -/
inductive TakenFor (cc : CharClass) (d : String) : ArgType → Prop
  | symbol : NamesSymbol d → TakenFor cc d .symbol
  | loop : d = "<unnamed loop>" → TakenFor cc d .unnamedLoop
  | path : (d = "[module]" ∨ ∃ r, d = "/" ++ r) → TakenFor cc d .filePathOrModule
  | text : PlainText cc d → TakenFor cc d .string
  | entity : ¬ NamesSymbol d → d ≠ "<unnamed loop>" → d ≠ "[module]" → (¬ ∃ r, d = "/" ++ r) →
      ¬ PlainText cc d → TakenFor cc d .cppEntity

/-- None of the characters that start a symbol, loop or path is an uppercase letter (true of
Unicode). -/
def Initials (cc : CharClass) : Prop :=
  cc.upper '(' = false ∧ cc.upper 'm' = false ∧ cc.upper '_' = false ∧ cc.upper '<' = false ∧
    cc.upper '[' = false ∧ cc.upper '/' = false

/-! ## Proofs -/

theorem splitSpaces_ne (l : List Char) : splitSpaces l ≠ [] := by
  cases l with
  | nil => simp [splitSpaces]
  | cons c cs =>
    rw [splitSpaces]
    split
    · simp
    · split <;> simp

theorem splitSpaces_join (l : List Char) : [' '].intercalate (splitSpaces l) = l := by
  induction l with
  | nil => rfl
  | cons c cs ih =>
    rw [splitSpaces]
    cases h : splitSpaces cs with
    | nil => exact absurd h (splitSpaces_ne _)
    | cons w ws =>
      rw [h] at ih
      dsimp only
      split
      · rename_i hc
        subst hc
        rw [List.intercalate_cons_cons, ih]; rfl
      · cases ws with
        | nil => simp only [List.intercalate_singleton] at ih ⊢; rw [ih]
        | cons w' ws =>
          rw [List.intercalate_cons_cons] at ih ⊢
          rw [List.cons_append, List.cons_append, ih]

theorem splitSpaces_nospace (l : List Char) : ∀ w ∈ splitSpaces l, ' ' ∉ w := by
  induction l with
  | nil => simp [splitSpaces]
  | cons c cs ih =>
    rw [splitSpaces]
    cases h : splitSpaces cs with
    | nil => exact absurd h (splitSpaces_ne _)
    | cons w ws =>
      rw [h] at ih
      dsimp only
      split
      · intro x hx
        rcases List.mem_cons.1 hx with rfl | hx
        · simp
        · exact ih x hx
      · rename_i hc
        intro x hx
        rcases List.mem_cons.1 hx with rfl | hx
        · simp only [List.mem_cons, not_or]
          exact ⟨fun e => hc e.symm, ih w (by simp)⟩
        · exact ih x (by simp [hx])

theorem splitSpaces_word (w : List Char) (h : ' ' ∉ w) : splitSpaces w = [w] := by
  induction w with
  | nil => rfl
  | cons c cs ih =>
    simp only [List.mem_cons, not_or] at h
    rw [splitSpaces, ih h.2]
    dsimp only
    rw [if_neg (fun e => h.1 e.symm)]

theorem splitSpaces_append (w l : List Char) (h : ' ' ∉ w) :
    splitSpaces (w ++ ' ' :: l) = w :: splitSpaces l := by
  induction w with
  | nil =>
    rw [List.nil_append, splitSpaces]
    cases h : splitSpaces l with
    | nil => exact absurd h (splitSpaces_ne _)
    | cons w ws => simp
  | cons c cs ih =>
    simp only [List.mem_cons, not_or] at h
    rw [List.cons_append, splitSpaces, ih h.2]
    dsimp only
    rw [if_neg (fun e => h.1 e.symm)]

theorem splitSpaces_unique (ws : List (List Char)) (hne : ws ≠ []) (h : ∀ w ∈ ws, ' ' ∉ w) :
    splitSpaces ([' '].intercalate ws) = ws := by
  induction ws with
  | nil => exact absurd rfl hne
  | cons w ws ih =>
    cases ws with
    | nil => rw [List.intercalate_singleton]; exact splitSpaces_word _ (h w (by simp))
    | cons w' ws =>
      rw [List.intercalate_cons_cons, List.append_assoc, List.singleton_append, splitSpaces_append _ _ (h w (by simp)),
        ih (by simp) (fun x hx => h x (List.mem_cons_of_mem _ hx))]

theorem middleOk_iff (cc : CharClass) (first : Char) (m : List Char) : ∀ (pre : List Char) (dash caps : Bool),
    (dash = true ↔ ∃ p, pre = p ++ ['-']) → (caps = true ↔ ∃ p u, pre = p ++ [u] ∧ cc.upper u = true) →
    (middleOk cc m dash caps = true ↔
      ∀ l c r, m = l ++ c :: r → cc.alnum c = true ∨ c = '-' ∨ c = '/' ∨
        (c = '>' ∧ ∃ p, pre ++ l = p ++ ['-']) ∨
        (c = '_' ∧ ∃ p u, pre ++ l = p ++ [u] ∧ cc.upper u = true)) := by
  induction m with
  | nil => intro pre dash caps _ _; simp [middleOk]
  | cons m ms ih =>
    intro pre dash caps hd hc
    have ih' := ih (pre ++ [m]) (m == '-') (cc.upper m)
      (by
        rw [beq_iff_eq]
        constructor
        · rintro rfl; exact ⟨pre, rfl⟩
        · rintro ⟨p, hp⟩
          exact List.cons.inj (List.append_inj' hp rfl).2 |>.1)
      (by
        constructor
        · intro h; exact ⟨pre, m, rfl, h⟩
        · rintro ⟨p, u, hp, hu⟩
          rw [List.cons.inj (List.append_inj' hp rfl).2 |>.1]; exact hu)
    rw [middleOk, Bool.and_eq_true, ih']
    have e : (cc.alnum m || m == '-' || (m == '>' && dash) || m == '/' || (m == '_' && caps)) = true ↔
        (cc.alnum m = true ∨ m = '-' ∨ m = '/' ∨ (m = '>' ∧ ∃ p, pre ++ [] = p ++ ['-']) ∨
          (m = '_' ∧ ∃ p u, pre ++ [] = p ++ [u] ∧ cc.upper u = true)) := by
      simp only [List.append_nil, ← hd, ← hc, Bool.or_eq_true, Bool.and_eq_true, beq_iff_eq]
      tauto
    rw [e]
    constructor
    · rintro ⟨h1, h2⟩ l c r hl
      cases l with
      | nil =>
        rw [List.nil_append] at hl
        cases hl
        exact h1
      | cons x l =>
        rw [List.cons_append] at hl
        cases hl
        have := h2 l c r rfl
        rwa [List.append_assoc, List.singleton_append] at this
    · intro h
      refine ⟨h [] m ms rfl, fun l c r hl => ?_⟩
      have := h (m :: l) c r (by rw [hl]; rfl)
      rwa [List.append_assoc, List.singleton_append]

theorem wordOk_iff (cc : CharClass) (w : List Char) : wordOk cc w = true ↔ PlainWord cc w := by
  unfold wordOk PlainWord
  have em : "memcmp()".toList = ['m', 'e', 'm', 'c', 'm', 'p', '(', ')'] := rfl
  rw [em]
  by_cases h : w = ['&'] ∨ w = ['m', 'e', 'm', 'c', 'm', 'p', '(', ')']
  · rw [if_pos h]
    simp only [true_iff]
    rcases h with h | h
    · exact .inl h
    · exact .inr (.inl h)
  · rw [if_neg h]
    have hs : ∀ P : Prop, (w = ['&'] ∨ w = ['m', 'e', 'm', 'c', 'm', 'p', '(', ')'] ∨ P) ↔ P := by
      intro P
      constructor
      · rintro (h' | h' | h')
        · exact absurd (.inl h') h
        · exact absurd (.inr h') h
        · exact h'
      · intro h'; exact .inr (.inr h')
    rw [hs]
    clear h hs em
    split
    · simp
    · rename_i c
      constructor
      · intro hc l c' r hl
        cases l with
        | nil => rw [List.nil_append] at hl; cases hl; exact .inl hc
        | cons x l => simp at hl
      · intro h
        rcases h [] c [] rfl with h | ⟨h, -⟩
        · exact h
        · exact absurd rfl h
    · rename_i c rest hne
      obtain ⟨mid, last, rfl⟩ : ∃ mid last, rest = mid ++ [last] := by
        refine ⟨rest.dropLast, rest.getLast (fun e => hne e), (List.dropLast_append_getLast _).symm⟩
      simp only [List.getLast?_append, List.getLast?_singleton, Option.some_or, Option.map_some,
        Option.getD_some, List.dropLast_concat, Bool.and_eq_true]
      rw [middleOk_iff cc c mid [] false false (by simp) (by simp)]
      simp only [List.nil_append]
      constructor
      · rintro ⟨⟨h1, h2⟩, h3⟩ l x r hl
        cases l with
        | nil => rw [List.nil_append] at hl; cases hl; exact .inl h1
        | cons y l =>
          rw [List.cons_append] at hl
          obtain ⟨rfl, hl'⟩ := List.cons.inj hl
          clear hl
          have hl := hl'
          clear hl'
          rcases List.eq_nil_or_concat r with rfl | ⟨r', z, rfl⟩
          · have := List.append_inj' hl rfl
            obtain ⟨-, e⟩ := this
            cases e
            exact .inl h2
          · rw [List.concat_eq_append, ← List.cons_append, ← List.append_assoc] at hl
            obtain ⟨e1, e2⟩ := List.append_inj' hl rfl
            rcases h3 l x r' e1 with h | h | h | ⟨h, p, hp⟩ | ⟨h, p, u, hp, hu⟩
            · exact .inl h
            · exact .inr ⟨by simp, by simp, .inl h⟩
            · exact .inr ⟨by simp, by simp, .inr (.inl h)⟩
            · exact .inr ⟨by simp, by simp, .inr (.inr (.inl ⟨h, c :: p, by simp, by rw [hp]; rfl⟩))⟩
            · exact .inr ⟨by simp, by simp, .inr (.inr (.inr ⟨h, c :: p, u, by simp, by rw [hp]; rfl, hu⟩))⟩
      · intro h
        refine ⟨⟨?_, ?_⟩, ?_⟩
        · rcases h [] c _ rfl with h | ⟨h, -⟩
          · exact h
          · exact absurd rfl h
        · rcases h (c :: mid) last [] (by simp) with h | ⟨-, h, -⟩
          · exact h
          · exact absurd rfl h
        · rintro l x r rfl
          rcases h (c :: l) x (r ++ [last]) (by simp) with h | ⟨-, -, h | h | ⟨h, l', hn, hl⟩ | ⟨h, l', u, hn, hl, hu⟩⟩
          · exact .inl h
          · exact .inr (.inl h)
          · exact .inr (.inr (.inl h))
          · cases l' with
            | nil => exact absurd rfl hn
            | cons y l' =>
              rw [List.cons_append] at hl
              exact .inr (.inr (.inr (.inl ⟨h, l', (List.cons.inj hl).2⟩)))
          · cases l' with
            | nil => exact absurd rfl hn
            | cons y l' =>
              rw [List.cons_append] at hl
              exact .inr (.inr (.inr (.inr ⟨h, l', u, (List.cons.inj hl).2, hu⟩)))

theorem str_prefix (p d : String) : p.toList.isPrefixOf d.toList = true ↔ ∃ r, d = p ++ r := by
  rw [List.isPrefixOf_iff_prefix]
  constructor
  · rintro ⟨r, hr⟩
    exact ⟨String.ofList r, by apply String.toList_inj.1; simp [String.toList_append, ← hr]⟩
  · rintro ⟨r, rfl⟩
    exact ⟨r.toList, by simp [String.toList_append]⟩

theorem strip_toList (d : String) :
    (stripParens d).toList =
      if "(".toList.isPrefixOf d.toList ∧ ")".toList.isSuffixOf d.toList then (d.toList.drop 1).dropLast
      else d.toList := by
  unfold stripParens
  split <;> simp

theorem symbolTest_iff (d : String) :
    ("_Z".toList.isPrefixOf (stripParens d).toList ∨ (stripParens d).toList = "main".toList ∨
      (stripParens d).toList = "__clang_call_terminate".toList ∨
      "__cxx_global_var_init".toList.isPrefixOf (stripParens d).toList ∨
      "_GLOBAL__sub_I_".toList.isPrefixOf (stripParens d).toList) ↔ NamesSymbol d := by
  rw [str_prefix, str_prefix, str_prefix, String.toList_inj, String.toList_inj]
  unfold NamesSymbol
  constructor
  · intro h
    refine ⟨stripParens d, (stripParens_iff d _).1 rfl, ?_⟩
    rcases h with ⟨r, h⟩ | h | h | ⟨r, h⟩ | ⟨r, h⟩
    · exact .inr (.inr ⟨r, .inl h⟩)
    · exact .inl h
    · exact .inr (.inl h)
    · exact .inr (.inr ⟨r, .inr (.inl h)⟩)
    · exact .inr (.inr ⟨r, .inr (.inr h)⟩)
  · rintro ⟨s, hs, h⟩
    rw [(stripParens_iff d s).2 hs]
    rcases h with h | h | ⟨r, h | h | h⟩
    · exact .inr (.inl h)
    · exact .inr (.inr (.inl h))
    · exact .inl ⟨r, h⟩
    · exact .inr (.inr (.inr (.inl ⟨r, h⟩)))
    · exact .inr (.inr (.inr (.inr ⟨r, h⟩)))

theorem plainText_iff (cc : CharClass) (d : String) (c : Char) (cs : List Char) (hd : d.toList = c :: cs) :
    PlainText cc d ↔ cc.upper c = true ∧ (splitSpaces d.toList).all (wordOk cc) = true := by
  unfold PlainText
  constructor
  · rintro ⟨⟨c', r, hc, hu⟩, ws, hw, hne, hall⟩
    rw [hd] at hc
    cases hc
    refine ⟨hu, ?_⟩
    rw [hw, splitSpaces_unique ws hne (fun w h => (hall w h).1), List.all_eq_true]
    exact fun w h => (wordOk_iff cc w).2 (hall w h).2
  · rintro ⟨hu, hall⟩
    rw [List.all_eq_true] at hall
    exact ⟨⟨c, cs, hd, hu⟩, splitSpaces d.toList, (splitSpaces_join _).symm, splitSpaces_ne _,
      fun w h => ⟨splitSpaces_nospace _ w h, (wordOk_iff cc w).1 (hall w h)⟩⟩

theorem infer_eq (cc : CharClass) (d : String) (c : Char) (cs : List Char) (hd : d.toList = c :: cs) :
    (NamesSymbol d → inferFromDetail cc d = some .symbol) ∧
    (¬ NamesSymbol d → d = "<unnamed loop>" → inferFromDetail cc d = some .unnamedLoop) ∧
    (¬ NamesSymbol d → d ≠ "<unnamed loop>" → ((∃ r, d = "/" ++ r) ∨ d = "[module]") →
      inferFromDetail cc d = some .filePathOrModule) ∧
    (¬ NamesSymbol d → d ≠ "<unnamed loop>" → ¬ ((∃ r, d = "/" ++ r) ∨ d = "[module]") →
      PlainText cc d → inferFromDetail cc d = some .string) ∧
    (¬ NamesSymbol d → d ≠ "<unnamed loop>" → ¬ ((∃ r, d = "/" ++ r) ∨ d = "[module]") →
      ¬ PlainText cc d → inferFromDetail cc d = some .cppEntity) := by
  have hs := symbolTest_iff d
  rw [strip_toList] at hs
  have hl : d.toList = "<unnamed loop>".toList ↔ d = "<unnamed loop>" := String.toList_inj
  have hp : ("/".toList.isPrefixOf d.toList = true ∨ d.toList = "[module]".toList) ↔
      ((∃ r, d = "/" ++ r) ∨ d = "[module]") := by rw [str_prefix, String.toList_inj]
  have ht := plainText_iff cc d c cs hd
  unfold inferFromDetail
  dsimp only
  refine ⟨fun h => ?_, fun h h1 => ?_, fun h h1 h2 => ?_, fun h h1 h2 h3 => ?_, fun h h1 h2 h3 => ?_⟩
  · rw [if_pos (hs.2 h)]
  · rw [if_neg (fun e => h (hs.1 e)), if_pos (hl.2 h1)]
  · rw [if_neg (fun e => h (hs.1 e)), if_neg (fun e => h1 (hl.1 e)), if_pos (hp.2 h2)]
  · rw [if_neg (fun e => h (hs.1 e)), if_neg (fun e => h1 (hl.1 e)), if_neg (fun e => h2 (hp.1 e))]
    rw [ht] at h3
    rw [hd] at h3 ⊢
    simp [h3.1, h3.2]
  · rw [if_neg (fun e => h (hs.1 e)), if_neg (fun e => h1 (hl.1 e)), if_neg (fun e => h2 (hp.1 e))]
    rw [ht] at h3
    rw [hd] at h3 ⊢
    dsimp only
    split
    · rfl
    · rename_i hu
      rw [if_neg]
      intro e
      exact h3 ⟨by simpa using hu, e⟩

theorem namesSymbol_initial {d : String} (h : NamesSymbol d) :
    ∃ c r, d.toList = c :: r ∧ (c = '(' ∨ c = 'm' ∨ c = '_') := by
  obtain ⟨s, hb, hs⟩ := h
  rcases hb with rfl | ⟨rfl, -⟩
  · exact ⟨'(', s.toList ++ [')'], by simp [String.toList_append], .inl rfl⟩
  · rcases hs with rfl | rfl | ⟨r, rfl | rfl | rfl⟩
    · exact ⟨'m', _, rfl, .inr (.inl rfl)⟩
    · exact ⟨'_', _, rfl, .inr (.inr rfl)⟩
    · exact ⟨'_', 'Z' :: r.toList, by simp [String.toList_append], .inr (.inr rfl)⟩
    · exact ⟨'_', "_cxx_global_var_init".toList ++ r.toList, by simp [String.toList_append], .inr (.inr rfl)⟩
    · exact ⟨'_', "GLOBAL__sub_I_".toList ++ r.toList, by simp [String.toList_append], .inr (.inr rfl)⟩

/-- **C90** (the guess itself) a text is taken for exactly one kind of argument, given by `TakenFor`. -/
theorem c90_taken_iff (cc : CharClass) (hcc : Initials cc) (d : String) (hd : d ≠ "") (t : ArgType) :
    inferFromDetail cc d = some t ↔ TakenFor cc d t := by
  obtain ⟨c, cs, hl⟩ : ∃ c cs, d.toList = c :: cs := by
    cases h : d.toList with
    | nil => exact absurd (String.toList_inj.1 (by rw [h]; rfl)) hd
    | cons c cs => exact ⟨c, cs, rfl⟩
  obtain ⟨e1, e2, e3, e4, e5⟩ := infer_eq cc d c cs hl
  obtain ⟨i1, i2, i3, i4, i5, i6⟩ := hcc
  have first : ∀ x r, d.toList = x :: r → x = c := fun x r h => by rw [hl] at h; cases h; rfl
  have nsym : NamesSymbol d → c = '(' ∨ c = 'm' ∨ c = '_' := by
    intro h
    obtain ⟨x, r, hx, hc⟩ := namesSymbol_initial h
    rw [first x r hx] at hc; exact hc
  have nloop : d = "<unnamed loop>" → c = '<' := by
    rintro rfl; exact (first '<' _ rfl).symm
  have nmod : ((∃ r, d = "/" ++ r) ∨ d = "[module]") → c = '/' ∨ c = '[' := by
    rintro (⟨r, rfl⟩ | rfl)
    · exact .inl (first '/' r.toList (by simp [String.toList_append])).symm
    · exact .inr (first '[' _ rfl).symm
  have ntext : PlainText cc d → cc.upper c = true := by
    rintro ⟨⟨x, r, hx, hu⟩, -⟩
    rw [← first x r hx]; exact hu
  have up : cc.upper c = true → ¬ NamesSymbol d ∧ d ≠ "<unnamed loop>" ∧
      ¬ ((∃ r, d = "/" ++ r) ∨ d = "[module]") := by
    intro hu
    refine ⟨fun h => ?_, fun h => ?_, fun h => ?_⟩
    · rcases nsym h with e | e | e <;> rw [e] at hu <;> simp_all
    · rw [nloop h] at hu; simp_all
    · rcases nmod h with e | e <;> rw [e] at hu <;> simp_all
  have back : ∀ t, TakenFor cc d t → inferFromDetail cc d = some t := by
    intro t h
    cases h with
    | symbol h => exact e1 h
    | loop h =>
      refine e2 (fun hs => ?_) h
      have := nloop h
      rcases nsym hs with e | e | e <;> rw [e] at this <;> exact absurd this (by decide)
    | path h =>
      have h' : (∃ r, d = "/" ++ r) ∨ d = "[module]" := h.symm
      have hc := nmod h'
      refine e3 (fun hs => ?_) (fun hs => ?_) h'
      · rcases nsym hs with e | e | e <;> rw [e] at hc <;> exact absurd hc (by decide)
      · rw [nloop hs] at hc; exact absurd hc (by decide)
    | text h =>
      obtain ⟨u1, u2, u3⟩ := up (ntext h)
      exact e4 u1 u2 u3 h
    | entity h1 h2 h3 h4 h5 => exact e5 h1 h2 (by rintro (h | h); exacts [h4 h, h3 h]) h5
  constructor
  · intro h
    by_cases s1 : NamesSymbol d
    · rw [e1 s1] at h; cases h; exact .symbol s1
    by_cases s2 : d = "<unnamed loop>"
    · rw [e2 s1 s2] at h; cases h; exact .loop s2
    by_cases s3 : (∃ r, d = "/" ++ r) ∨ d = "[module]"
    · rw [e3 s1 s2 s3] at h; cases h; exact .path s3.symm
    by_cases s4 : PlainText cc d
    · rw [e4 s1 s2 s3 s4] at h; cases h; exact .text s4
    rw [e5 s1 s2 s3 s4] at h; cases h
    exact .entity s1 s2 (fun e => s3 (.inr e)) (fun e => s3 (.inl e)) s4
  · exact back t

variable {F : Type} {K : Type}

/-- **C90** an activity unknown to crofiler is recorded with its text and with the one kind of argument
this text is taken for. -/
theorem c90_recorded_iff (cc : CharClass) (hcc : Initials cc) (name : String) (hn : activities.lookup name = none)
    (d : String) (hd : d ≠ "") (a : Activity) :
    parseActivity (F := F) cc name (some [("detail", .str d)]) = .ok a ↔
      a.name = name ∧ a.known = false ∧ a.detail = some d ∧ TakenFor cc d a.argType := by
  constructor
  · intro h
    obtain ⟨h1, h2, -, h4⟩ := parseActivity_ok h
    obtain ⟨h5, h6⟩ := h4 hn
    refine ⟨h1, h5, h2, ?_⟩
    rcases h6 with ⟨-, h | h⟩ | ⟨s, h, hi⟩
    · simp at h
    · simp at h
    · simp at h
      subst h
      exact (c90_taken_iff cc hcc d hd _).1 hi
  · rintro ⟨h1, h2, h3, h4⟩
    have hi := (c90_taken_iff cc hcc d hd _).2 h4
    obtain ⟨n, k, t, det⟩ := a
    dsimp only at h1 h2 h3 hi
    subst h1 h2 h3
    simp [parseActivity, hn, parseDetailArg, hi]

/-- **C90** every nonempty text is taken for one kind of argument, and only one. -/
theorem c90_exactly_one (cc : CharClass) (hcc : Initials cc) (d : String) (hd : d ≠ "") :
    ∃ t, TakenFor cc d t ∧ ∀ t', TakenFor cc d t' → t' = t := by
  cases hi : inferFromDetail cc d with
  | none => exact absurd ((infer_none_iff cc d).1 hi) hd
  | some t =>
    refine ⟨t, (c90_taken_iff cc hcc d hd t).1 hi, fun t' h => ?_⟩
    have := (c90_taken_iff cc hcc d hd t').2 h
    rw [hi] at this
    cases this
    rfl

/-- What the argument of an unknown activity with detail `d` resolves to. -/
inductive UnknownMeans (cc : CharClass) (ent : String → EntRes K) (demangle : String → Option String) (d : String) :
    Except PErr (Parsed K) → Prop
  | text : PlainText cc d → UnknownMeans cc ent demangle d (.ok (.string d))
  | loop : d = "<unnamed loop>" → UnknownMeans cc ent demangle d (.ok .unnamedLoop)
  | module_ : d = "[module]" → UnknownMeans cc ent demangle d (.ok .module_)
  | path (r : String) : d = "/" ++ r → UnknownMeans cc ent demangle d (.ok (.filePath d))
  | symbol (s : String) (p : Parsed K) : NamesSymbol d → Bare d s → SymbolMeans ent demangle s p →
      UnknownMeans cc ent demangle d (.ok p)
  | entity (k : K) : TakenFor cc d .cppEntity → ent d = .ok k → UnknownMeans cc ent demangle d (.ok (.cppEntity k))
  | bad : TakenFor cc d .cppEntity → ent d = .err → UnknownMeans cc ent demangle d (.error .badEntity)

theorem resolves_symbol {ent : String → EntRes K} {demangle : String → Option String} {t : ArgType}
    {o : Option String} {d : String} {p : Parsed K} (h : Resolves ent demangle t o p) (ht : t = .symbol)
    (ho : o = some d) : ∃ s, Bare d s ∧ SymbolMeans ent demangle s p := by
  induction h with
  | loop t hk => subst ht; rcases hk with hk | hk <;> cases hk
  | symbol t d' s p h1 h2 h3 => cases ho; exact ⟨s, h2, h3⟩
  | _ => cases ht

/-- **C90** with an entity parser that does not panic, the argument of an unknown activity always
resolves to what its text says; the only error is a text taken for a C++ entity which is not one. In
particular a path is never refused (compare `c51_relative_path_violated`), nor is a loop. -/
theorem c90_resolved (cc : CharClass) (hcc : Initials cc) (name : String) (hn : activities.lookup name = none)
    (d : String) (hd : d ≠ "") (a : Activity)
    (ha : parseActivity (F := F) cc name (some [("detail", .str d)]) = .ok a)
    (ent : String → EntRes K) (demangle : String → Option String) (hent : ∀ s, ent s ≠ .panic) :
    UnknownMeans cc ent demangle d (parseArg ent demangle a.argType a.detail) := by
  obtain ⟨-, -, h3, h4⟩ := (c90_recorded_iff cc hcc name hn d hd a).1 ha
  rw [h3]
  generalize a.argType = t at h4
  cases h4 with
  | symbol h =>
    obtain ⟨p, hp⟩ := (c51_symbol_kept ent demangle hent d).1
    have e : parseArg ent demangle .symbol (some d) = .ok p := hp
    rw [e]
    have hr := (c51_value_iff ent demangle .symbol (some d) p).1 e
    obtain ⟨s, h1, h2⟩ := resolves_symbol hr rfl rfl
    exact .symbol s p h h1 h2
  | loop h => subst h; exact .loop rfl
  | path h =>
    rcases h with rfl | ⟨r, rfl⟩
    · exact .module_ rfl
    · have e := (c51_value_iff ent demangle .filePathOrModule (some ("/" ++ r)) (.filePath ("/" ++ r))).2 (.path r)
      rw [e]
      exact .path r rfl
  | text h => exact .text h
  | entity h1 h2 h3 h4 h5 =>
    have ht := TakenFor.entity h1 h2 h3 h4 h5
    cases he : ent d with
    | ok k => simpa [parseArg, he] using UnknownMeans.entity (cc := cc) (demangle := demangle) k ht he
    | err => simpa [parseArg, he] using UnknownMeans.bad (cc := cc) (demangle := demangle) ht he
    | panic => exact absurd he (hent _)

/-! ## Witnesses -/

/-- ASCII character classes, for the examples. -/
def asciiClass : CharClass := ⟨Char.isUpper, Char.isAlphanum⟩

example : Initials asciiClass := by unfold Initials asciiClass; decide

example : activities.lookup "BrandNewPass" = none := by decide

example : inferFromDetail asciiClass "X86 DAG->DAG Instruction Selection" = some .string := by decide
example : inferFromDetail asciiClass "Prologue/Epilogue Insertion & Frame Finalization" = some .string := by decide
example : inferFromDetail asciiClass "Live DEBUG_VALUE analysis" = some .string := by decide
example : inferFromDetail asciiClass "ZeroFieldKalmanAlignment_invoker" = some .cppEntity := by decide
example : inferFromDetail asciiClass "(_ZN3fooEv)" = some .symbol := by decide

example : TakenFor asciiClass "Expand memcmp() to load/stores" .string :=
  (c90_taken_iff asciiClass (by unfold Initials asciiClass; decide) _ (by decide) _).1 (by decide)

/-- Non-vacuity of `c90_recorded_iff` and `c90_resolved`: a new pass on a piece of information text. -/
example : parseActivity (F := Nat) asciiClass "BrandNewPass" (some [("detail", .str "X86 DAG->DAG Selection")]) =
    .ok ⟨"BrandNewPass", false, .string, some "X86 DAG->DAG Selection"⟩ :=
  (c90_recorded_iff asciiClass (by unfold Initials asciiClass; decide) "BrandNewPass" (by decide) _ (by decide) _).2
    ⟨rfl, rfl, rfl, (c90_taken_iff asciiClass (by unfold Initials asciiClass; decide) _ (by decide) _).1 (by decide)⟩

example : UnknownMeans (K := Nat) asciiClass (fun _ => .err) (fun _ => none) "Foo<int>"
    (parseArg (fun _ => .err) (fun _ => none) .cppEntity (some "Foo<int>")) :=
  c90_resolved (F := Nat) asciiClass (by unfold Initials asciiClass; decide) "BrandNewPass" (by decide) "Foo<int>" (by decide)
    ⟨"BrandNewPass", false, .cppEntity, some "Foo<int>"⟩ (by decide) _ _ (by simp)

example : ∃ t, TakenFor asciiClass "A->B" t ∧ ∀ t', TakenFor asciiClass "A->B" t' → t' = t :=
  c90_exactly_one asciiClass (by unfold Initials asciiClass; decide) "A->B" (by decide)

/-- A quirk of the code which the specification records: an underscore is only accepted after a capital
letter that is not the first letter of the word. -/
example : inferFromDetail asciiClass "A_B" = some .cppEntity ∧ inferFromDetail asciiClass "AA_B" = some .string := by
  decide

end Verif.Trace
