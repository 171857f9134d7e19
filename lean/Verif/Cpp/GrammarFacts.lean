/-
C49, C50: concrete texts, and texts on which `parse_entity` panics.
-/
import Verif.Cpp.GrammarSafe
import Verif.Cpp.EntityDisplay

set_option autoImplicit false
set_option linter.unusedVariables false
set_option linter.unusedSimpArgs false

namespace Verif.Cpp

/-! ## The grammar at work -/

/-- Parse an entity and display it again, with a recursion budget of 20. -/
def reshow (s : String) : Option String :=
  match parseEntity s.toList with
  | .ok _ (some t) => some (String.ofList (disp .postfixUsage t ⟨[], none, 20, []⟩).2.out)
  | _ => none

/-- Texts that come out as they went in. -/
example : (["int", "unsigned long const&", "std::vector<int, std::allocator<int>>::push_back",
    "void (*)(int, char const*)", "std::operator<<<char>", "ns::{lambda(int)#1}::operator()",
    "T C::*", "A<(B)2 + 3 ? x : y>", "f()::g", "foo(int) const::bar", "__attribute__((x)) int",
    "int __vector(4)", "A<, void>", "decltype(a.b...)", "(anonymous class)", "auto:12",
    "(lambda at /src/main.cpp:12:34)", "A<sizeof(char**)>", "int[3]", "Foo<'c'>::operator bool"].all
    fun s => reshow s == some s) = true := by decide +kernel

/-- Texts that are normalized. -/
example : reshow "A<3 ,4 >" = some "A<3, 4>" ∧ reshow "(lambda at /a/../b/c.cpp:1:2)" =
    some "(lambda at /b/c.cpp:1:2)" ∧ reshow "signed   long int" = some "long" := by decide +kernel

/-- Texts that are rejected. -/
example : (["", "A<", "A<1>2>", "3", "A::", "A B", "<unknown> "].all fun s => reshow s == none) = true := by
  decide +kernel

example : parseEntity "<unknown>".toList = .ok [] none := by with_unfolding_all rfl

/-! ## Safe texts -/

/-- Boolean form of the conditions of `Safe`. -/
def safeB (s : Input) : Bool :=
  decide (s.length < 768) && decide (opCount s ≤ 62) &&
  s.tails.all (fun t => match t with
    | ' ' :: 'a' :: 't' :: ' ' :: u => u.head? == some '/'
    | _ => true) &&
  s.tails.all (fun t => match t with
    | c :: d :: u => !(c == d && ['^', '%', '/', '*', '~', '!', ','].contains c) || u.head? == some '='
    | _ => true)

theorem safeB_spec {s : Input} (h : safeB s = true) : Safe s := by
  simp only [safeB, Bool.and_eq_true, decide_eq_true_eq, List.all_eq_true, List.mem_tails] at h
  obtain ⟨⟨⟨h1, h2⟩, h3⟩, h4⟩ := h
  refine ⟨h1, h2, fun pre t e => ?_, fun pre c t hc e => ?_⟩
  · have h5 := h3 (" at ".toList ++ t) ⟨pre, by rw [e]; simp⟩
    have h6 : " at ".toList = [' ', 'a', 't', ' '] := by decide +kernel
    rw [h6] at h5
    simp only [List.cons_append, List.nil_append, beq_iff_eq] at h5
    cases t with
    | nil => cases h5
    | cons x xs => cases h5; exact ⟨xs, rfl⟩
  · have h5 := h4 (c :: c :: t) ⟨pre, e.symm⟩
    simp only [beq_self_eq_true, Bool.true_and, Bool.or_eq_true, Bool.not_eq_true',
      beq_iff_eq] at h5
    rcases h5 with h5 | h5
    · rw [List.contains_iff_mem.2 hc] at h5; cases h5
    · cases t with
      | nil => cases h5
      | cons x xs => cases h5; exact ⟨xs, rfl⟩

/-- Ordinary names meet the hypotheses of `c50_safe`. -/
example : Safe ("std::__detail::_Hashtable_base<std::string, std::pair<const std::string, " ++
    "std::function<void (ns::Event const&, unsigned long)>>, ns::(lambda at /home/me/src/a.cpp:12:3), " ++
    "(A<3> + 2 == 5) ? 1 : 0>::rehash(unsigned long) const").toList := safeB_spec (by decide +kernel)

/-! ## Panics -/

theorem typeLike_eq (s : Input) : typeLike s = stepTypeLike grammar s := by
  have := congrArg Calls.typeLike grammar_fixpoint
  exact (congrFun this s).symm

theorem valueLike_eq (ac ag : Bool) (s : Input) : valueLike ac ag s = stepValueLike grammar ac ag s := by
  have := congrArg Calls.valueLike grammar_fixpoint
  exact (congrFun (congrFun (congrFun this ac) ag) s).symm

theorem declarator_eq (s : Input) : declarator s = stepDeclarator grammar s := by
  have := congrArg Calls.declarator grammar_fixpoint
  exact (congrFun this s).symm

theorem bind_panic {α β : Type} {p : P α} {f : α → P β} {s : Input} (h : p s = .panic) :
    (p >>= f) s = .panic := by rw [P.bind_run, h]

theorem bind_step {α β : Type} {p : P α} {f : α → P β} {s r : Input} {a : α} {res : Res β}
    (h : p s = .ok r a) (h' : f a r = res) : (p >>= f) s = res := by
  rw [P.bind_run, h]; exact h'

theorem many0_err {α : Type} {p : P α} {s : Input} (h : p s = .err) : P.many0 p s = .ok s [] := by
  rw [P.many0_run, h]

theorem tag_cons_ne {w : String} {c d : Char} {cs t : List Char} (hw : w.toList = c :: cs) (h : c ≠ d) :
    P.tag w (d :: t) = .err := by
  simp [P.tag, hw, P.tagL, h]

theorem keywords_cons_ne {α : Type} {d : Char} {t : Input} (table : List (String × α))
    (h : ∀ e ∈ table, ∃ c cs, e.1.toList = c :: cs ∧ c ≠ d) : keywords table (d :: t) = .err := by
  induction table with
  | nil => rfl
  | cons e es ih =>
    obtain ⟨c, cs, h1, h2⟩ := h e (by simp)
    have h3 : keyword e.1 (d :: t) = .err := by
      simp only [keyword, P.bind_run, tag_cons_ne h1 h2]
    simp only [keywords, h3]
    exact ih fun e he => h e (by simp [he])

/-- A lambda at a path that cannot be interned makes `parse_entity` panic. -/
theorem lambda_panics (path rest : List Char) (hcolon : ':' ∉ path) (hlen : 2 ≤ path.length) (h3 : internPath path = P.crash) :
    parseEntity ("(lambda at ".toList ++ path ++ ':' :: rest) = .panic := by
  have hpre : "(lambda at ".toList = '(' :: "lambda at ".toList := by decide +kernel
  generalize hs : "(lambda at ".toList ++ path ++ ':' :: rest = s
  have hcons : s = '(' :: ("lambda at ".toList ++ path ++ ':' :: rest) := by
    rw [← hs, hpre]; rfl
  have hpath : pathText (path ++ ':' :: rest) = .ok (':' :: rest) path := by
    obtain ⟨a, b, t, rfl⟩ : ∃ a b t, path = a :: b :: t := by
      match path, hlen with
      | a :: b :: t, _ => exact ⟨a, b, t, rfl⟩
    have hb : b ≠ ':' := fun h => hcolon (by rw [h]; simp)
    have hd : (do let c ← P.anychar; P.char ':'; pure c : P Char) (a :: b :: t ++ ':' :: rest) = .err := by
      simp [P.bind_run, P.anychar, P.char, hb]
    have htw := takeWhile_append_of_end (f := fun c => c != ':') (w := a :: b :: t) (t := ':' :: rest)
      (by intro c hc; simp only [bne_iff_ne, ne_eq]; rintro rfl; exact hcolon hc)
      (by intro c u h; cases h; simp)
    have ho : P.opt (do let c ← P.anychar; P.char ':'; pure c : P Char) (a :: b :: t ++ ':' :: rest) =
        .ok (a :: b :: t ++ ':' :: rest) none := by rw [P.opt, hd]
    have hw : P.takeWhile1 (fun c => c != ':') (a :: b :: t ++ ':' :: rest) =
        .ok (':' :: rest) (a :: b :: t) := by
      rw [P.takeWhile1, P.verify, P.bind_run, P.takeWhile]
      simp only []
      rw [htw.1, htw.2]
      rfl
    rw [pathText, P.bind_run, ho]
    show (P.takeWhile1 (fun c => c != ':') >>= _) _ = _
    rw [P.bind_run, hw]
    rfl
  have hlam : clangLambda s = .panic := by
    have h1 : P.tag "(lambda at " s = .ok (path ++ ':' :: rest) () := by
      rw [← hs, P.tag, List.append_assoc, tagL_append]
    simp only [clangLambda, sourceLocation, P.bind_run, h1, hpath, h3, P.crash]
  have hun : unqualifiedId grammar s = .panic := by
    have h1 : s.head? = some '(' := by rw [hcons]; rfl
    simp only [unqualifiedId, P.byHead, h1]
    simp only [reduceCtorEq, or_true, if_true, P.bind_run, anonymous, P.byHead, h1, P.or, hlam]
  have hid : idExpression grammar s = .panic := by
    have h1 : P.opt (P.tag "::") s = .ok s none := by
      rw [hcons]
      simp only [P.opt, tag_cons_ne (c := ':') (cs := [':']) (d := '(') (w := "::") (by decide +kernel)
        (by decide)]
    have h2 : protoLoop (scopeOrUid grammar) s = .panic := by
      rw [protoLoop]
      simp only [scopeOrUid, P.bind_run, hun]
    rw [idExpression]
    refine bind_panic ?_
    rw [protoIdExpression]
    refine bind_step h1 ?_
    exact bind_panic (p := protoLoop (scopeOrUid grammar)) h2
  have hsp : P.space0 s = .ok s () := by rw [hcons]; rfl
  have hcv : parseCv s = .ok s CV.none := by
    have : spaced (keywords cvTable) s = .err := by
      rw [hcons]
      simp only [spaced, P.bind_run, keywords_cons_ne cvTable (d := '(') (by
        have : ∀ e ∈ cvTable, e.1.toList.head? ≠ some '(' ∧ e.1.toList ≠ [] := by decide +kernel
        intro e he
        obtain ⟨h1, h2⟩ := this e he
        cases hx : e.1.toList with
        | nil => exact absurd hx h2
        | cons c cs => exact ⟨c, cs, rfl, fun h => h1 (by rw [hx, h]; rfl)⟩)]
    simp only [parseCv, P.bind_run, many0_err this]
    rfl
  have hleg : parseLegacyName s = .err := by
    have : spaced (keywords legacyTable) s = .err := by
      rw [hcons]
      simp only [spaced, P.bind_run, keywords_cons_ne legacyTable (d := '(') (by
        have : ∀ e ∈ legacyTable, e.1.toList.head? ≠ some '(' ∧ e.1.toList ≠ [] := by decide +kernel
        intro e he
        obtain ⟨h1, h2⟩ := this e he
        cases hx : e.1.toList with
        | nil => exact absurd hx h2
        | cons c cs => exact ⟨c, cs, rfl, fun h => h1 (by rw [hx, h]; rfl)⟩)]
    simp only [parseLegacyName, P.many1, P.bind_run, this]
  have hst : simpleType grammar s = .panic := by
    have h1 : P.tag "auto:" s = .err := by
      rw [hcons]; exact tag_cons_ne (c := 'a') (cs := "uto:".toList) (by decide +kernel) (by decide)
    have h2 : keywords elaboratedTable s = .err := by
      rw [hcons]
      exact keywords_cons_ne elaboratedTable (by
        have : ∀ e ∈ elaboratedTable, e.1.toList.head? ≠ some '(' ∧ e.1.toList ≠ [] := by decide +kernel
        intro e he
        obtain ⟨h1, h2⟩ := this e he
        cases hx : e.1.toList with
        | nil => exact absurd hx h2
        | cons c cs => exact ⟨c, cs, rfl, fun h => h1 (by rw [hx, h]; rfl)⟩)
    simp only [simpleType, P.or, P.bind_run, hleg, h1, P.opt, h2, hid]
  have hat : attributes grammar s = .ok s .nil := by
    have h1 : P.tag "__attribute__(" s = .err := by
      rw [hcons]
      exact tag_cons_ne (c := '_') (cs := "_attribute__(".toList) (by decide +kernel) (by decide)
    simp only [attributes, P.bind_run, P.opt, h1]
    rfl
  have hty : typeLike s = .panic := by
    rw [typeLike_eq]
    simp only [stepTypeLike, spaced, P.bind_run, hat, hsp, P.pure_run, hcv, hst]
  simp only [parseEntity, P.bind_run, P.or, hty]

/-- **C50 is violated.** A lambda whose location is a relative path makes `parse_entity`
panic, for every relative path and whatever follows it. -/
theorem c50_relative_lambda_panics (path rest : List Char) (hne : path ≠ [])
    (hcolon : ':' ∉ path) (hrel : path.head? ≠ some '/') (hlen : 2 ≤ path.length) :
    parseEntity ("(lambda at ".toList ++ path ++ ':' :: rest) = .panic := by
  have h2 : Intern.isRelative path = true := by
    cases path with
    | nil => exact absurd rfl hne
    | cons c t =>
      unfold Intern.isRelative
      split
      · rename_i h; cases h; simp at hrel
      · rfl
  have h3 : internPath path = P.crash := by unfold internPath; rw [if_pos h2]
  exact lambda_panics path rest hcolon hlen h3

/-- A realistic instance. -/
example : parseEntity "(lambda at src/main.cpp:12:34)".toList = .panic := by
  have := c50_relative_lambda_panics "src/main.cpp".toList "12:34)".toList (by decide +kernel)
    (by decide +kernel) (by decide +kernel) (by decide +kernel)
  exact this

/-- **C50 is violated** too by absolute paths of 255 or more names: a lambda located there makes `parse_entity` panic, whatever
follows it. -/
theorem c50_long_path_panics (names : List (List Char)) (rest : List Char) (hn : ∀ n ∈ names, Intern.ProperName n ∧ ':' ∉ n)
    (hlong : 255 ≤ names.length) :
    parseEntity ("(lambda at ".toList ++ names.flatMap (fun n => '/' :: n) ++ ':' :: rest) = .panic := by
  have h0 : names ≠ [] := by rintro rfl; simp at hlong
  have hd := Intern.c18_display names (fun n h => (hn n h).1)
  rw [if_neg h0] at hd
  have hm := Intern.c18_plain_path names (fun n h => (hn n h).1)
  rw [hd] at hm
  refine lambda_panics _ rest ?_ ?_ ?_
  · intro h
    obtain ⟨n, h1, h2⟩ := List.mem_flatMap.1 h
    rcases List.mem_cons.1 h2 with h2 | h2
    · exact absurd h2 (by decide)
    · exact (hn n h1).2 h2
  · obtain ⟨n, ns, rfl⟩ := List.exists_cons_of_ne_nil h0
    have := (hn n (by simp)).1.1
    obtain ⟨c, t, rfl⟩ := List.exists_cons_of_ne_nil this
    simp
  · have hr : Intern.isRelative (names.flatMap fun n => '/' :: n) = false := by
      obtain ⟨n, ns, rfl⟩ := List.exists_cons_of_ne_nil h0
      rfl
    unfold internPath
    rw [hm, hr, if_neg (by simp), if_neg (by omega)]

/-- 255 directories named `d` are too many, and 254 are not. -/
example : parseEntity ("(lambda at ".toList ++ (List.replicate 255 ['d']).flatMap (fun n => '/' :: n) ++ ":1:2)".toList) = .panic ∧
    (match parseEntity ("(lambda at ".toList ++ (List.replicate 254 ['d']).flatMap (fun n => '/' :: n) ++ ":1:2)".toList) with
      | .ok [] (some _) => True | _ => False) := by
  constructor
  · have e : ":1:2)".toList = ':' :: "1:2)".toList := by decide +kernel
    rw [e]
    refine c50_long_path_panics _ _ (fun n h => ?_) (by rw [List.length_replicate])
    rw [List.eq_of_mem_replicate h]
    exact ⟨⟨by decide, by decide, by decide, by decide⟩, by decide⟩
  · have : (match parseEntity ("(lambda at ".toList ++ (List.replicate 254 ['d']).flatMap (fun n => '/' :: n) ++ ":1:2)".toList) with
      | .ok [] (some _) => true | _ => false) = true := by decide +kernel
    split at this
    · trivial
    · cases this

/-- The result of a parse is a panic. -/
def isPanic {α : Type} : Res α → Bool
  | .panic => true
  | _ => false

theorem isPanic_eq {α : Type} {r : Res α} (h : isPanic r = true) : r = .panic := by
  cases r with
  | panic => rfl
  | ok _ _ => cases h
  | err => cases h
  | fuel => cases h

/-- **C50 is violated** by doubled operators in template arguments, by calls with 64
arguments, and by values with 64 postfix parts. -/
theorem c50_other_panics :
    parseEntity "A<x^^y>".toList = .panic ∧ parseEntity "A<b**c>".toList = .panic ∧
    parseEntity ("decltype(f(0".toList ++ (List.replicate 63 ",0".toList).flatten ++ "))".toList) = .panic ∧
    parseEntity ("decltype(f".toList ++ (List.replicate 64 "()".toList).flatten ++ ")".toList) = .panic := by
  refine ⟨isPanic_eq ?_, isPanic_eq ?_, isPanic_eq ?_, isPanic_eq ?_⟩ <;> decide +kernel

/-- **C50 is violated** by functions named `operator<<` whose first parameter is a pointer to a
pointer: the second `<` is first taken for the start of template arguments. -/
theorem c50_shift_panics :
    parseEntity "operator<<(char**)".toList = .panic ∧
    parseEntity "std::operator<<(A**, int)".toList = .panic := by
  refine ⟨isPanic_eq ?_, isPanic_eq ?_⟩ <;> decide +kernel

/-- The same functions are read when the stars are separated, or when a reference comes first. -/
example : (["operator<<(A&, char**)", "operator<<(char* const*)", "operator<(char**)"].all
    fun s => reshow s == some s) = true := by decide +kernel

/-- Hence C50 does not hold as stated. -/
theorem c50_refuted : ¬ ∀ s, parseEntity s ≠ .panic := fun h => h _ c50_other_panics.1

/-- One argument, or one postfix part, less does not panic: the limit is at 64. -/
example : ["decltype(f(0".toList ++ (List.replicate 62 ",0".toList).flatten ++ "))".toList,
    "decltype(f".toList ++ (List.replicate 63 "()".toList).flatten ++ ")".toList].all (fun s =>
      match parseEntity s with | .ok [] (some _) => true | _ => false) = true := by decide +kernel

end Verif.Cpp
