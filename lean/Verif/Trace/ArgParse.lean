import Verif.Trace.Args

/-!
# Property C51: resolving raw activity arguments (`RawActivityArgument::parse`)

The C++ entity parser, the demangler and the path interner are parameters: theorems hold for any
behaviour of the first two, and the path interner is characterized by C18.
-/

set_option autoImplicit false
set_option linter.unusedSectionVars false

namespace Verif.Trace

/-- `ParsedActivityArgument` / `ParsedSymbol` (argument.rs:324-348, 405-416). -/
inductive Parsed (K : Type) where
  | nothing
  | string (s : String)
  | filePath (s : String)
  | cppEntity (k : K)
  | symParsed (k : K)
  | symDemangled (s : String)
  | symMaybeMangled (s : String)
  | unnamedLoop
  | module_
deriving DecidableEq, Repr

/-- `ActivityArgumentError` (argument.rs), with the explicit panics. -/
inductive PErr where
  | badEntity
  | unexpectedLoopName (s : String)
  | panicMissingDetail
  | panicRelativePath
  | panicEntity
deriving DecidableEq, Repr

/-- Result of the C++ entity parser: success, clean error or panic. -/
inductive EntRes (K : Type) where
  | ok (k : K) | err | panic
deriving DecidableEq, Repr

/-- Unix `Path::is_absolute`. -/
def isAbsolute (s : String) : Bool := "/".toList.isPrefixOf s.toList

/-- Removal of the parentheses around a symbol (argument.rs:142-144). -/
def stripParens (s : String) : String :=
  if "(".toList.isPrefixOf s.toList ∧ ")".toList.isSuffixOf s.toList then
    String.ofList ((s.toList.drop 1).dropLast)
  else s

variable {K : Type}

/-- `RawActivityArgument::parse_symbol` (argument.rs:135-196). -/
def parseSymbol (ent : String → EntRes K) (demangle : String → Option String) (detail : String) :
    Except PErr (Parsed K) :=
  let symbol := stripParens detail
  let parseDemangled (e : String) : Except PErr (Parsed K) :=
    match ent e with
    | .ok k => .ok (.symParsed k)
    | .err => .ok (.symDemangled e)
    | .panic => .error .panicEntity
  match demangle symbol with
  | some d => parseDemangled d
  | none =>
    if symbol = "main" ∨ symbol = "__clang_call_terminate" then parseDemangled symbol
    else .ok (.symMaybeMangled symbol)

/-- `RawActivityArgument::parse_unnamed_loop` (argument.rs:199-206). -/
def parseLoop (s : String) : Except PErr (Parsed K) :=
  if s = "<unnamed loop>" then .ok .unnamedLoop else .error (.unexpectedLoopName s)

/-- `RawActivityArgument::parse_impl` (argument.rs:59-122). -/
def parseArg (ent : String → EntRes K) (demangle : String → Option String) (t : ArgType)
    (detail : Option String) : Except PErr (Parsed K) :=
  match t, detail with
  | .nothing, _ => .ok .nothing
  | .string, some d => .ok (.string d)
  | .filePathOrModule, some d =>
    if d = "[module]" then .ok .module_
    else if isAbsolute d then .ok (.filePath d) else .error .panicRelativePath
  | .cppEntity, some d =>
    match ent d with
    | .ok k => .ok (.cppEntity k)
    | .err => .error .badEntity
    | .panic => .error .panicEntity
  | .symbol, some d => parseSymbol ent demangle d
  | .symbolOpt, some d => parseSymbol ent demangle d
  | .symbolOpt, none => .ok .nothing
  | .unnamedLoop, some d => parseLoop d
  | .unnamedLoopOpt, some d => parseLoop d
  | .unnamedLoopOpt, none => .ok .nothing
  | _, none => .error .panicMissingDetail

variable {F : Type}

/-- **C51** the `expect("Presence should be checked upstream")` never fires on an activity that
was accepted by the loader. -/
theorem c51_detail_present {cc : CharClass} {name : String} {args : Option (Args F)} {a : Activity}
    (h : parseActivity cc name args = .ok a) (ent : String → EntRes K)
    (demangle : String → Option String) :
    parseArg ent demangle a.argType a.detail ≠ .error .panicMissingDetail := by
  have hsome : ∀ t s, parseArg (K := K) ent demangle t (some s) ≠ .error .panicMissingDetail := by
    intro t s
    cases t <;> simp only [parseArg, parseSymbol, parseLoop] <;> (repeat' split) <;> simp
  obtain ⟨-, hd, hk, hu⟩ := parseActivity_ok h
  cases hl : activities.lookup name with
  | some t =>
    obtain ⟨-, rfl, hs⟩ := hk t hl
    cases hdet : a.detail with
    | some s => exact hsome _ s
    | none =>
      rw [hd] at hdet
      have hno : ∀ s, args ≠ some [("detail", .str s)] := by
        intro s hs'
        rw [(detailOf_eq args s).2 hs'] at hdet
        simp at hdet
      cases ht : a.argType <;> rw [ht] at hs <;> simp only [Shape] at hs <;>
        first
        | (obtain ⟨s, hs⟩ := hs; exact absurd hs (hno s))
        | simp [parseArg]
  | none =>
    rcases (hu hl).2 with ⟨ht, -⟩ | ⟨s, hs, -⟩
    · rw [ht]; simp [parseArg]
    · rw [hd, (detailOf_eq args s).2 hs]; exact hsome _ s

/-- **C51** (sufficient condition; the exact criterion is `c51_panic_iff`, below) with an entity parser
that does not panic, resolving the argument of any accepted activity does not panic. -/
theorem c51_no_panic_when {cc : CharClass} {name : String} {args : Option (Args F)}
    {a : Activity} (h : parseActivity cc name args = .ok a) (ent : String → EntRes K)
    (demangle : String → Option String) (hent : ∀ s, ent s ≠ .panic)
    (habs : a.argType = .filePathOrModule → ∀ s, a.detail = some s → s ≠ "[module]" →
      isAbsolute s) :
    (∃ p, parseArg ent demangle a.argType a.detail = .ok p) ∨
      parseArg ent demangle a.argType a.detail = .error .badEntity ∨
      ∃ s, parseArg ent demangle a.argType a.detail = .error (.unexpectedLoopName s) := by
  cases hr : parseArg ent demangle a.argType a.detail with
  | ok p => exact .inl ⟨p, rfl⟩
  | error e =>
    right
    cases e with
    | badEntity => exact .inl rfl
    | unexpectedLoopName s => exact .inr ⟨s, rfl⟩
    | panicMissingDetail => exact absurd hr (c51_detail_present h ent demangle)
    | panicRelativePath =>
      exfalso
      cases ht : a.argType <;> cases hd : a.detail <;> rw [ht, hd] at hr <;>
        simp only [parseArg, parseSymbol, parseLoop] at hr <;>
        (repeat' split at hr) <;> try (simp at hr; done)
      rename_i s hne hab
      exact hab (habs ht s hd hne)
    | panicEntity =>
      exfalso
      cases ht : a.argType <;> cases hd : a.detail <;> rw [ht, hd] at hr <;>
        simp only [parseArg, parseSymbol, parseLoop] at hr <;>
        (repeat' split at hr) <;> first | (simp at hr; done) | (exact hent _ (by assumption))

/-- **C51** violated: an accepted `Source` activity whose file path is relative (as clang reports
for `#include` through a relative search path) makes argument resolution panic. -/
theorem c51_relative_path_violated (ent : String → EntRes K) (demangle : String → Option String) (cc : CharClass) :
    ∃ a, parseActivity (F := F) cc "Source" (some [("detail", .str "./a.h")]) = .ok a ∧
      parseArg ent demangle a.argType a.detail = .error .panicRelativePath := by
  have := ((c11_known_accept_iff (F := F) cc "Source" .filePathOrModule (by decide)
    (some [("detail", .str "./a.h")]) (by simp)).1).2 ⟨_, rfl⟩
  exact ⟨_, this, by simp [parseArg, detailOf, isAbsolute]⟩

/-- **C51** a symbol always resolves, and one that neither demangles nor is a known plain name is
kept verbatim (without the enclosing parentheses). -/
theorem c51_symbol_kept (ent : String → EntRes K) (demangle : String → Option String)
    (hent : ∀ s, ent s ≠ .panic) (d : String) :
    (∃ p, parseSymbol ent demangle d = .ok p) ∧
    (demangle (stripParens d) = none → stripParens d ≠ "main" →
      stripParens d ≠ "__clang_call_terminate" →
      parseSymbol ent demangle d = .ok (.symMaybeMangled (stripParens d))) := by
  constructor
  · unfold parseSymbol
    dsimp only
    split
    · rename_i d' _
      cases he : ent d' with
      | panic => exact absurd he (hent _)
      | ok k => exact ⟨_, rfl⟩
      | err => exact ⟨_, rfl⟩
    · split
      · cases he : ent (stripParens d) with
        | panic => exact absurd he (hent _)
        | ok k => exact ⟨_, rfl⟩
        | err => exact ⟨_, rfl⟩
      · exact ⟨_, rfl⟩
  · intro h1 h2 h3
    simp [parseSymbol, h1, h2, h3]

example : parseArg (K := Nat) (fun _ => .err) (fun _ => none) .symbol (some "(foo)") =
    .ok (.symMaybeMangled "foo") := by decide

/-! ## Exact meaning of a resolved argument -/

/-- `s` is the symbol `d` denotes: `d` without one pair of enclosing parentheses, if it has one. -/
def Bare (d s : String) : Prop :=
  d = "(" ++ s ++ ")" ∨ (d = s ∧ ¬ ∃ t : String, d = "(" ++ t ++ ")")

/-- What a symbol detail resolves to: the parsed entity if the symbol (demangled, or one of two
plain names) parses, else its text. -/
inductive SymbolMeans (ent : String → EntRes K) (demangle : String → Option String) (s : String) :
    Parsed K → Prop
  | parsed (e : String) (k : K) : demangle s = some e → ent e = .ok k →
      SymbolMeans ent demangle s (.symParsed k)
  | demangled (e : String) : demangle s = some e → ent e = .err →
      SymbolMeans ent demangle s (.symDemangled e)
  | plain (k : K) : demangle s = none → (s = "main" ∨ s = "__clang_call_terminate") →
      ent s = .ok k → SymbolMeans ent demangle s (.symParsed k)
  | plainText : demangle s = none → (s = "main" ∨ s = "__clang_call_terminate") →
      ent s = .err → SymbolMeans ent demangle s (.symDemangled s)
  | raw : demangle s = none → s ≠ "main" → s ≠ "__clang_call_terminate" →
      SymbolMeans ent demangle s (.symMaybeMangled s)

/-- What the detail of an activity resolves to, by kind. -/
inductive Resolves (ent : String → EntRes K) (demangle : String → Option String) :
    ArgType → Option String → Parsed K → Prop
  | nothing (d : Option String) : Resolves ent demangle .nothing d .nothing
  | noSymbol : Resolves ent demangle .symbolOpt none .nothing
  | noLoop : Resolves ent demangle .unnamedLoopOpt none .nothing
  | string (d : String) : Resolves ent demangle .string (some d) (.string d)
  | module_ : Resolves ent demangle .filePathOrModule (some "[module]") .module_
  | path (r : String) : Resolves ent demangle .filePathOrModule (some ("/" ++ r)) (.filePath ("/" ++ r))
  | entity (d : String) (k : K) : ent d = .ok k →
      Resolves ent demangle .cppEntity (some d) (.cppEntity k)
  | loop (t : ArgType) : t = .unnamedLoop ∨ t = .unnamedLoopOpt →
      Resolves ent demangle t (some "<unnamed loop>") .unnamedLoop
  | symbol (t : ArgType) (d s : String) (p : Parsed K) : t = .symbol ∨ t = .symbolOpt →
      Bare d s → SymbolMeans ent demangle s p → Resolves ent demangle t (some d) p

theorem stripParens_iff (d s : String) : stripParens d = s ↔ Bare d s := by
  have hp : ∀ t : String, d = "(" ++ t ++ ")" ↔ d.toList = '(' :: (t.toList ++ [')']) := by
    intro t
    constructor
    · rintro rfl; simp [String.toList_append]
    · intro h; apply String.toList_inj.1; simp [String.toList_append, h]
  have key : ("(".toList.isPrefixOf d.toList = true ∧ ")".toList.isSuffixOf d.toList = true) ↔
      ∃ t : String, d = "(" ++ t ++ ")" := by
    simp only [hp]
    constructor
    · rintro ⟨h1, h2⟩
      rw [List.isPrefixOf_iff_prefix] at h1
      rw [List.isSuffixOf_iff_suffix] at h2
      obtain ⟨r, h1⟩ := h1
      obtain ⟨l, h2⟩ := h2
      have h1' : '(' :: r = d.toList := h1
      have h2' : l ++ [')'] = d.toList := h2
      rw [← h1'] at h2'
      cases l with
      | nil => simp at h2'
      | cons x l =>
        simp at h2'
        exact ⟨String.ofList l, by rw [← h1', ← h2'.2]; simp⟩
    · rintro ⟨t, h⟩
      rw [h]
      refine ⟨by simp, ?_⟩
      rw [List.isSuffixOf_iff_suffix]
      exact ⟨'(' :: t.toList, by simp⟩
  unfold stripParens Bare
  by_cases h : ∃ t : String, d = "(" ++ t ++ ")"
  · rw [if_pos (key.2 h)]
    obtain ⟨t, ht⟩ := h
    have hl := (hp t).1 ht
    rw [hl]
    have e : String.ofList ((List.drop 1 ('(' :: (t.toList ++ [')']))).dropLast) = t := by
      simp
    rw [e]
    constructor
    · rintro rfl; exact .inl ht
    · rintro (h | ⟨-, h⟩)
      · have := (hp s).1 h
        rw [hl] at this
        simp at this
        exact String.toList_inj.1 this
      · exact absurd ⟨t, ht⟩ h
  · rw [if_neg (fun hc => h (key.1 hc))]
    constructor
    · rintro rfl; exact .inr ⟨rfl, h⟩
    · rintro (hs | ⟨hs, -⟩)
      · exact absurd ⟨s, hs⟩ h
      · exact hs

/-- **C51** resolution yields exactly the value that the kind of the activity and its detail call
for. -/
theorem c51_value_iff (ent : String → EntRes K) (demangle : String → Option String) (t : ArgType)
    (d : Option String) (p : Parsed K) :
    parseArg ent demangle t d = .ok p ↔ Resolves ent demangle t d p := by
  have hsym : ∀ (d : String), parseSymbol ent demangle d = .ok p ↔
      SymbolMeans ent demangle (stripParens d) p := by
    intro d
    unfold parseSymbol
    dsimp only
    constructor
    · intro h
      split at h
      · rename_i e he
        split at h <;> simp at h <;> subst h
        · exact .parsed e _ he (by assumption)
        · exact .demangled e he (by assumption)
      · rename_i he
        split at h
        · rename_i hm
          split at h <;> simp at h <;> subst h
          · exact .plain _ he hm (by assumption)
          · exact .plainText he hm (by assumption)
        · rename_i hm
          simp at h
          subst h
          exact .raw he (fun h => hm (.inl h)) (fun h => hm (.inr h))
    · intro h
      cases h with
      | parsed e k h1 h2 => simp [h1, h2]
      | demangled e h1 h2 => simp [h1, h2]
      | plain k h1 h2 h3 => simp [h1, h2, h3]
      | plainText h1 h2 h3 => simp [h1, h2, h3]
      | raw h1 h2 h3 => simp [h1, h2, h3]
  have habs : ∀ d : String, isAbsolute d = true ↔ ∃ r, d = "/" ++ r := by
    intro d
    unfold isAbsolute
    rw [List.isPrefixOf_iff_prefix]
    constructor
    · rintro ⟨r, hr⟩
      exact ⟨String.ofList r, by apply String.toList_inj.1; simp [String.toList_append, ← hr]⟩
    · rintro ⟨r, rfl⟩
      exact ⟨r.toList, by simp [String.toList_append]⟩
  constructor
  · intro h
    cases t <;> cases d <;> simp only [parseArg] at h <;> try (simp at h; done)
    · cases h; exact .nothing _
    · cases h; exact .nothing _
    · cases h; exact .string _
    · split at h
      · rename_i hm; cases h; rw [hm]; exact .module_
      · split at h
        · rename_i ha; cases h; obtain ⟨r, rfl⟩ := (habs _).1 ha; exact .path r
        · simp at h
    · split at h <;> simp at h
      subst h
      exact .entity _ _ (by assumption)
    · exact .symbol _ _ _ _ (.inl rfl) ((stripParens_iff _ _).1 rfl) ((hsym _).1 h)
    · cases h; exact .noSymbol
    · exact .symbol _ _ _ _ (.inr rfl) ((stripParens_iff _ _).1 rfl) ((hsym _).1 h)
    · unfold parseLoop at h
      split at h <;> simp at h
      rename_i hd
      rw [hd, ← h]; exact .loop _ (.inl rfl)
    · cases h; exact .noLoop
    · unfold parseLoop at h
      split at h <;> simp at h
      rename_i hd
      rw [hd, ← h]; exact .loop _ (.inr rfl)
  · intro h
    cases h with
    | nothing => rfl
    | noSymbol => rfl
    | noLoop => rfl
    | string => rfl
    | module_ => simp [parseArg]
    | path r =>
      have h1 : ("/" ++ r : String) ≠ "[module]" := by
        intro h
        have := congrArg String.toList h
        simp [String.toList_append] at this
      simp only [parseArg, if_neg h1, (habs _).2 ⟨r, rfl⟩, if_true]
    | entity d k h => simp [parseArg, h]
    | loop t h => rcases h with rfl | rfl <;> simp [parseArg, parseLoop]
    | symbol t d s p h1 h2 h3 =>
      rw [← stripParens_iff] at h2
      subst h2
      rcases h1 with rfl | rfl <;> exact (hsym d).2 h3

example : Resolves (K := Nat) (fun _ => .err) (fun _ => none) .symbol (some "(foo)")
    (.symMaybeMangled "foo") :=
  .symbol _ _ "foo" _ (.inl rfl) (.inl rfl) (.raw rfl (by decide) (by decide))

/-- **C51** the only panics of argument resolution: a file path that is not absolute, or a panic of
the entity parser on the text it is given. -/
theorem c51_panic_iff {cc : CharClass} {name : String} {args : Option (Args F)} {a : Activity}
    (h : parseActivity cc name args = .ok a) (ent : String → EntRes K)
    (demangle : String → Option String) :
    ((∃ p, parseArg ent demangle a.argType a.detail = .ok p) ∨
      parseArg ent demangle a.argType a.detail = .error .badEntity ∨
      (∃ s, parseArg ent demangle a.argType a.detail = .error (.unexpectedLoopName s)) ∨
      (∃ s, a.argType = .filePathOrModule ∧ a.detail = some s ∧ s ≠ "[module]" ∧
        ¬ ∃ r, s = "/" ++ r) ∨
      ∃ s, ent s = .panic) ∧
    (∀ s, a.argType = .filePathOrModule → a.detail = some s → s ≠ "[module]" →
      (¬ ∃ r, s = "/" ++ r) → parseArg ent demangle a.argType a.detail = .error .panicRelativePath) := by
  have habs : ∀ d : String, isAbsolute d = true ↔ ∃ r, d = "/" ++ r := by
    intro d
    unfold isAbsolute
    rw [List.isPrefixOf_iff_prefix]
    constructor
    · rintro ⟨r, hr⟩
      exact ⟨String.ofList r, by apply String.toList_inj.1; simp [String.toList_append, ← hr]⟩
    · rintro ⟨r, rfl⟩
      exact ⟨r.toList, by simp [String.toList_append]⟩
  constructor
  · by_cases he : ∃ s, ent s = .panic
    · exact .inr (.inr (.inr (.inr he)))
    · by_cases hp : ∃ s, a.argType = .filePathOrModule ∧ a.detail = some s ∧ s ≠ "[module]" ∧
          ¬ ∃ r, s = "/" ++ r
      · exact .inr (.inr (.inr (.inl hp)))
      · rcases c51_no_panic_when h ent demangle (fun s hs => he ⟨s, hs⟩) (by
          intro h1 s h2 h3
          by_contra h4
          exact hp ⟨s, h1, h2, h3, fun h5 => h4 ((habs s).2 h5)⟩) with h | h | h
        · exact .inl h
        · exact .inr (.inl h)
        · exact .inr (.inr (.inl h))
  · intro s h1 h2 h3 h4
    rw [h1, h2]
    simp only [parseArg, if_neg h3]
    rw [if_neg (fun hc => h4 ((habs s).1 hc))]

end Verif.Trace
