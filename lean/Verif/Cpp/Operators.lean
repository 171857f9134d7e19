/-
C47: arithmetic and comparison operators in expressions.

Models cpparser/src/subparsers/operators/mod.rs and operators/usage.rs.
-/
import Verif.Cpp.Atoms

set_option autoImplicit false
set_option linter.unusedVariables false
set_option linter.unusedSimpArgs false

namespace Verif.Cpp

/-- `Symbol` (operators/mod.rs 400-445). -/
inductive Symbol where
  | addPlus | subNeg | mulDeref | div | mod | xor | andRef | or
  | bitNot | not | assignEq | less | greater | comma
  deriving DecidableEq

/-- `symbol` (operators/mod.rs 377-397), on one character. -/
def symbolOf : Char → Option Symbol
  | '+' => some .addPlus
  | '-' => some .subNeg
  | '*' => some .mulDeref
  | '/' => some .div
  | '%' => some .mod
  | '^' => some .xor
  | '&' => some .andRef
  | '|' => some .or
  | '~' => some .bitNot
  | '!' => some .not
  | '=' => some .assignEq
  | '<' => some .less
  | '>' => some .greater
  | ',' => some .comma
  | _ => none

/-- `symbol` (operators/mod.rs 377-397). -/
def symbol : P Symbol := P.mapOpt P.anychar symbolOf

/-- `Display for Symbol` (operators/mod.rs 447-470). -/
def Symbol.char : Symbol → Char
  | .addPlus => '+' | .subNeg => '-' | .mulDeref => '*' | .div => '/' | .mod => '%'
  | .xor => '^' | .andRef => '&' | .or => '|' | .bitNot => '~' | .not => '!'
  | .assignEq => '=' | .less => '<' | .greater => '>' | .comma => ','

/-- The `Operator`s (operators/mod.rs 26-73) produced by
`arithmetic_or_comparison`: `Basic`, `Deref`, `Spaceship`.  The other operators
are added in `Ast`. -/
inductive ArithOp where
  | basic (symbol : Symbol) (twice equal : Bool)
  | deref (star : Bool)
  | spaceship
  deriving DecidableEq

/-- Text of these operators (operators/mod.rs 196-234, outside of a binary
usage, where spaces are added around `Basic` and `Spaceship`). -/
def ArithOp.text : ArithOp → List Char
  | .basic s t e => [s.char] ++ (if t then [s.char] else []) ++ (if e then ['='] else [])
  | .deref star => ['-', '>'] ++ (if star then ['*'] else [])
  | .spaceship => ['<', '=', '>']

/-- `arithmetic_or_comparison::<1>` (operators/mod.rs 304-305). -/
def arith1 : P ArithOp := do
  let s ← symbol
  pure (.basic s false false)

/-- `arithmetic_or_comparison::<2>` (operators/mod.rs 307-329). -/
def arith2 : P ArithOp :=
  P.mapOpt (do let a ← symbol; let b ← symbol; pure (a, b)) fun
    | (s, .assignEq) => some (.basic s false true)
    | (s, s2) =>
      if s2 = s then some (.basic s true false)
      else if s = .subNeg && s2 = .greater then some (.deref false)
      else none

/-- `arithmetic_or_comparison::<3>` (operators/mod.rs 331-352). -/
def arith3 : P ArithOp :=
  P.mapOpt (do let a ← symbol; let b ← symbol; let c ← symbol; pure (a, b, c)) fun
    | (s, s2, c) =>
      if c = .assignEq && s2 = s then some (.basic s true true)
      else if s = .subNeg && s2 = .greater && c = .mulDeref then some (.deref true)
      else if s = .less && s2 = .assignEq && c = .greater then some .spaceship
      else none

/-- `parse_increment_decrement` (operators/usage.rs 17-31). -/
def incDec : P ArithOp :=
  P.or (do P.tag "++"; pure (.basic .addPlus true false))
       (do P.tag "--"; pure (.basic .subNeg true false))

/-- `arith1` as restricted in a binary expression (operators/usage.rs 84-100).
The `_ => unreachable!()` arm is the last one. -/
def binary1 (allowComma allowGreater : Bool) : P ArithOp := do
  let op ← arith1
  match op with
  | .basic s false false =>
    match s with
    | .bitNot | .not => P.fail
    | .comma => if allowComma then pure op else P.fail
    | .greater => if allowGreater then pure op else P.fail
    | _ => pure op
  | _ => P.crash

/-- `arith2` as restricted in a binary expression (operators/usage.rs 104-120). -/
def binary2 (allowGreater : Bool) : P ArithOp := do
  let op ← arith2
  match op with
  | .basic s true false =>
    match s with
    | .addPlus | .subNeg => P.fail
    | .andRef | .or | .assignEq | .less => pure op
    | .greater => if allowGreater then pure op else P.fail
    | .xor | .mod | .div | .mulDeref | .bitNot | .not | .comma => P.crash
  | _ => pure op

/-- `parse_binary_expr_middle` (operators/usage.rs 77-126). -/
def binaryExprMiddle (allowComma allowGreater : Bool) : P ArithOp :=
  P.or (P.or arith3 (binary2 allowGreater)) (binary1 allowComma allowGreater)

/-! ## Reading symbols -/

theorem symbolOf_char (s : Symbol) : symbolOf s.char = some s := by cases s <;> rfl

theorem symbolOf_some {c : Char} {s : Symbol} (h : symbolOf c = some s) : c = s.char := by
  unfold symbolOf at h
  split at h <;> cases h <;> rfl

/-- First symbol of a text. -/
theorem symbol_cons (c : Char) (t : Input) :
    symbol (c :: t) = match symbolOf c with | some s => .ok t s | none => .err := by
  simp only [symbol, P.mapOpt, P.bind_run, P.anychar]
  cases symbolOf c <;> rfl

@[simp] theorem symbol_nil : symbol [] = .err := rfl

theorem symbol_char_run (s : Symbol) (t : Input) : symbol (s.char :: t) = .ok t s := by
  rw [symbol_cons, symbolOf_char]

theorem Prog.symbol : Prog symbol := Prog.mapOpt Prog.anychar

/-- A text starts with a symbol or does not. -/
theorem symbol_cases (s : Input) : (∃ y t, s = y.char :: t ∧ symbol s = .ok t y) ∨
    (symbol s = .err ∧ ∀ y t, s ≠ Symbol.char y :: t) := by
  cases s with
  | nil => exact Or.inr ⟨rfl, by simp⟩
  | cons c t =>
    rw [symbol_cons]
    cases h : symbolOf c with
    | some y => exact Or.inl ⟨y, t, by rw [symbolOf_some h], rfl⟩
    | none =>
      refine Or.inr ⟨rfl, fun y t' he => ?_⟩
      cases he
      rw [symbolOf_char] at h; cases h

theorem arith1_run (a : Symbol) (t : Input) : arith1 (a.char :: t) = .ok t (.basic a false false) := by
  simp [arith1, P.bind_run, symbol_char_run]

theorem arith2_run (a b : Symbol) (t : Input) : arith2 (a.char :: b.char :: t) =
    if b = .assignEq then .ok t (.basic a false true)
    else if b = a then .ok t (.basic a true false)
    else if a = .subNeg ∧ b = .greater then .ok t (.deref false) else .err := by
  simp only [arith2, P.mapOpt, P.bind_run, symbol_char_run, P.pure_run]
  cases a <;> cases b <;> rfl

theorem arith3_run (a b c : Symbol) (t : Input) : arith3 (a.char :: b.char :: c.char :: t) =
    if c = .assignEq ∧ b = a then .ok t (.basic a true true)
    else if a = .subNeg ∧ b = .greater ∧ c = .mulDeref then .ok t (.deref true)
    else if a = .less ∧ b = .assignEq ∧ c = .greater then .ok t .spaceship else .err := by
  simp only [arith3, P.mapOpt, P.bind_run, symbol_char_run, P.pure_run]
  cases a <;> cases b <;> cases c <;> rfl

/-- A text that does not start with a symbol. -/
def NoSym (s : Input) : Prop := ∀ y t, s ≠ Symbol.char y :: t

theorem symbol_nosym {s : Input} (h : NoSym s) : symbol s = .err := by
  rcases symbol_cases s with ⟨y, t, hs, -⟩ | ⟨h1, -⟩
  · exact absurd hs (h y t)
  · exact h1

theorem arith3_short1 {s : Input} (h : NoSym s) : arith3 s = .err := by
  simp only [arith3, P.mapOpt, P.bind_run, symbol_nosym h]
theorem arith3_short2 (a : Symbol) {s : Input} (h : NoSym s) : arith3 (a.char :: s) = .err := by
  simp only [arith3, P.mapOpt, P.bind_run, symbol_char_run, symbol_nosym h]
theorem arith3_short3 (a b : Symbol) {s : Input} (h : NoSym s) :
    arith3 (a.char :: b.char :: s) = .err := by
  simp only [arith3, P.mapOpt, P.bind_run, symbol_char_run, symbol_nosym h]
theorem arith2_short1 {s : Input} (h : NoSym s) : arith2 s = .err := by
  simp only [arith2, P.mapOpt, P.bind_run, symbol_nosym h]
theorem arith2_short2 (a : Symbol) {s : Input} (h : NoSym s) : arith2 (a.char :: s) = .err := by
  simp only [arith2, P.mapOpt, P.bind_run, symbol_char_run, symbol_nosym h]
theorem arith1_short1 {s : Input} (h : NoSym s) : arith1 s = .err := by
  simp only [arith1, P.bind_run, symbol_nosym h]

/-! ## C47 -/

/-- The symbols whose doubling is no C++ operator. -/
def undoubled : List Char := ['^', '%', '/', '*', '~', '!', ',']

/-- How the code decides between the lengths of operators: the outcome depends
only on (at most) the first three symbols. -/
def binaryResult (ac ag : Bool) : Option Symbol → Option Symbol → Option Symbol → Option (Option ArithOp)
  | none, _, _ => some none
  | some a, none, _ =>
    some (if (a = .comma ∧ !ac) ∨ (a = .greater ∧ !ag) ∨ a = .bitNot ∨ a = .not then none
      else some (.basic a false false))
  | some a, some b, c =>
    if c = some .assignEq ∧ b = a then some (some (.basic a true true))
    else if a = .subNeg ∧ b = .greater ∧ c = some .mulDeref then some (some (.deref true))
    else if a = .less ∧ b = .assignEq ∧ c = some .greater then some (some .spaceship)
    else if b = .assignEq then some (some (.basic a false true))
    else if a = b ∧ a.char ∈ undoubled then none
    else if a = b ∧ (a = .andRef ∨ a = .or ∨ a = .less ∨ (a = .greater ∧ ag)) then
      some (some (.basic a true false))
    else if a = .subNeg ∧ b = .greater then some (some (.deref false))
    else
      some (if (a = .comma ∧ !ac) ∨ (a = .greater ∧ !ag) ∨ a = .bitNot ∨ a = .not then none
        else some (.basic a false false))

/-- Turn the decision into a parse result. -/
def toRes (s : Input) : Option (Option ArithOp) → Res ArithOp
  | none => .panic
  | some none => .err
  | some (some op) => .ok (s.drop op.text.length) op

theorem binary_run0 (ac ag : Bool) {s : Input} (h : NoSym s) :
    binaryExprMiddle ac ag s = toRes s (binaryResult ac ag none none none) := by
  simp only [binaryExprMiddle, P.or, binary2, binary1, P.bind_run, arith3_short1 h, arith2_short1 h,
    arith1_short1 h, binaryResult, toRes]

theorem binary_run1 (ac ag : Bool) (a : Symbol) {s : Input} (h : NoSym s) :
    binaryExprMiddle ac ag (a.char :: s) = toRes (a.char :: s) (binaryResult ac ag (some a) none none) := by
  simp only [binaryExprMiddle, P.or, binary2, binary1, P.bind_run, arith3_short2 a h, arith2_short2 a h,
    arith1_run]
  cases a <;> cases ac <;> cases ag <;> rfl

theorem binary_run2 (ac ag : Bool) (a b : Symbol) {s : Input} (h : NoSym s) :
    binaryExprMiddle ac ag (a.char :: b.char :: s) =
      toRes (a.char :: b.char :: s) (binaryResult ac ag (some a) (some b) none) := by
  simp only [binaryExprMiddle, P.or, binary2, binary1, P.bind_run, arith3_short3 a b h, arith2_run,
    arith1_run]
  cases a <;> cases b <;> cases ac <;> cases ag <;> rfl

theorem binary_run3 (ac ag : Bool) (a b c : Symbol) (s : Input) :
    binaryExprMiddle ac ag (a.char :: b.char :: c.char :: s) =
      toRes (a.char :: b.char :: c.char :: s) (binaryResult ac ag (some a) (some b) (some c)) := by
  simp only [binaryExprMiddle, P.or, binary2, binary1, P.bind_run, arith3_run, arith2_run,
    arith1_run]
  cases ac <;> cases ag <;> cases a <;> cases b <;> cases c <;> rfl

/-- Every input is decided by its first symbols. -/
theorem binary_run (ac ag : Bool) (s : Input) :
    (NoSym s ∧ binaryExprMiddle ac ag s = toRes s (binaryResult ac ag none none none)) ∨
    (∃ a t, s = Symbol.char a :: t ∧ NoSym t ∧
      binaryExprMiddle ac ag s = toRes s (binaryResult ac ag (some a) none none)) ∨
    (∃ a b t, s = Symbol.char a :: Symbol.char b :: t ∧ NoSym t ∧
      binaryExprMiddle ac ag s = toRes s (binaryResult ac ag (some a) (some b) none)) ∨
    (∃ a b c t, s = Symbol.char a :: Symbol.char b :: Symbol.char c :: t ∧
      binaryExprMiddle ac ag s = toRes s (binaryResult ac ag (some a) (some b) (some c))) := by
  rcases symbol_cases s with ⟨a, t, rfl, -⟩ | ⟨-, h⟩
  · right
    rcases symbol_cases t with ⟨b, t, rfl, -⟩ | ⟨-, h⟩
    · right
      rcases symbol_cases t with ⟨c, t, rfl, -⟩ | ⟨-, h⟩
      · exact Or.inr ⟨a, b, c, t, rfl, binary_run3 ac ag a b c t⟩
      · exact Or.inl ⟨a, b, t, rfl, h, binary_run2 ac ag a b h⟩
    · exact Or.inl ⟨a, t, rfl, h, binary_run1 ac ag a h⟩
  · exact Or.inl ⟨h, binary_run0 ac ag h⟩

theorem Symbol.char_inj {a b : Symbol} (h : a.char = b.char) : a = b := by
  have := symbolOf_char a
  rw [h, symbolOf_char] at this
  exact (Option.some.inj this).symm

/-- All symbols. -/
def allSymbols : List Symbol :=
  [.addPlus, .subNeg, .mulDeref, .div, .mod, .xor, .andRef, .or, .bitNot, .not, .assignEq, .less,
   .greater, .comma]

theorem mem_allSymbols (a : Symbol) : a ∈ allSymbols := by cases a <;> decide

theorem result_none_iff (ac ag : Bool) (a b : Symbol) (c : Option Symbol) :
    binaryResult ac ag (some a) (some b) c = none ↔
      a = b ∧ a.char ∈ undoubled ∧ c ≠ some .assignEq := by
  have h0 : ∀ ac ag, ∀ a ∈ allSymbols, ∀ b ∈ allSymbols, ∀ c ∈ none :: allSymbols.map some,
      (binaryResult ac ag (some a) (some b) c = none ↔
        a = b ∧ a.char ∈ undoubled ∧ c ≠ some .assignEq) := by decide +kernel
  refine h0 ac ag a (mem_allSymbols a) b (mem_allSymbols b) c ?_
  cases c with
  | none => simp
  | some c => simp [mem_allSymbols c]

theorem toRes_panic {s : Input} {d : Option (Option ArithOp)} : toRes s d = .panic ↔ d = none := by
  rcases d with _ | _ | _ <;> simp [toRes]

/-- **C47.** The binary operator parser panics exactly on inputs that start with
a doubled `^`, `%`, `/`, `*`, `~`, `!` or `,` not followed by `=`. -/
theorem binary_panics_iff (ac ag : Bool) (s : Input) :
    binaryExprMiddle ac ag s = .panic ↔
      ∃ c ∈ ['^', '%', '/', '*', '~', '!', ','], ∃ t, s = c :: c :: t ∧ ∀ t', t ≠ '=' :: t' := by
  have hund : ∀ c ∈ undoubled, ∃ a : Symbol, a.char = c := by
    intro c hc
    have : ∀ c ∈ undoubled, (symbolOf c).isSome = true := by decide
    obtain ⟨a, ha⟩ := Option.isSome_iff_exists.1 (this c hc)
    exact ⟨a, (symbolOf_some ha).symm⟩
  have key : (∃ c ∈ undoubled, ∃ t, s = c :: c :: t ∧ ∀ t', t ≠ '=' :: t') ↔
      ∃ a : Symbol, a.char ∈ undoubled ∧ ∃ t, s = a.char :: a.char :: t ∧ ∀ t', t ≠ '=' :: t' := by
    constructor
    · rintro ⟨c, hc, t, h⟩
      obtain ⟨a, rfl⟩ := hund c hc
      exact ⟨a, hc, t, h⟩
    · rintro ⟨a, hc, t, h⟩; exact ⟨_, hc, t, h⟩
  change _ ↔ ∃ c ∈ undoubled, _
  rw [key]
  rcases binary_run ac ag s with ⟨hn, he⟩ | ⟨a, t, rfl, hn, he⟩ | ⟨a, b, t, rfl, hn, he⟩ |
    ⟨a, b, c, t, rfl, he⟩
  · rw [he]
    constructor
    · intro h; cases h
    · rintro ⟨a, -, t, h, -⟩; exact absurd h (hn _ _)
  · rw [he, toRes_panic]
    constructor
    · intro h; simp [binaryResult] at h
    · rintro ⟨a', -, t', h, -⟩
      simp only [List.cons.injEq] at h
      exact absurd h.2 (hn _ _)
  · rw [he, toRes_panic, result_none_iff]
    constructor
    · rintro ⟨rfl, h, -⟩
      exact ⟨a, h, t, rfl, fun t' ht => hn .assignEq t' ht⟩
    · rintro ⟨a', h1, t', h2, h3⟩
      simp only [List.cons.injEq] at h2
      have e1 := Symbol.char_inj h2.1
      have e2 := Symbol.char_inj h2.2.1
      subst e1; subst e2
      exact ⟨rfl, h1, by simp⟩
  · rw [he, toRes_panic, result_none_iff]
    constructor
    · rintro ⟨rfl, h, h3⟩
      refine ⟨a, h, c.char :: t, rfl, fun t' ht => h3 ?_⟩
      simp only [List.cons.injEq] at ht
      have : c = .assignEq := Symbol.char_inj ht.1
      rw [this]
    · rintro ⟨a', h1, t', h2, h3⟩
      simp only [List.cons.injEq] at h2
      have e1 := Symbol.char_inj h2.1
      have e2 := Symbol.char_inj h2.2.1
      subst e1; subst e2
      refine ⟨rfl, h1, fun hc => h3 t ?_⟩
      rw [← h2.2.2]
      cases hc
      rfl

/-- What is known of a decided operator. -/
def decidedOk (ac ag : Bool) (sy : List Symbol) (op : ArithOp) : Bool :=
  decide (op.text <+: sy.map Symbol.char) &&
  (ac || op.text != [',']) && (ag || (op.text != ['>'] && op.text != ['>', '>'])) &&
  op.text != ['~'] && op.text != ['!'] && op.text != ['+', '+'] && op.text != ['-', '-']

theorem decided1 (ac ag : Bool) (a : Symbol) (op : ArithOp)
    (h : binaryResult ac ag (some a) none none = some (some op)) : decidedOk ac ag [a] op = true := by
  have key : ∀ ac ag, ∀ a ∈ allSymbols,
      (match binaryResult ac ag (some a) none none with
        | some (some op) => decidedOk ac ag [a] op | _ => true) = true := by decide +kernel
  have := key ac ag a (mem_allSymbols a)
  rw [h] at this; exact this

theorem decided2 (ac ag : Bool) (a b : Symbol) (op : ArithOp)
    (h : binaryResult ac ag (some a) (some b) none = some (some op)) :
    decidedOk ac ag [a, b] op = true := by
  have key : ∀ ac ag, ∀ a ∈ allSymbols, ∀ b ∈ allSymbols,
      (match binaryResult ac ag (some a) (some b) none with
        | some (some op) => decidedOk ac ag [a, b] op | _ => true) = true := by decide +kernel
  have := key ac ag a (mem_allSymbols a) b (mem_allSymbols b)
  rw [h] at this; exact this

theorem decided3 (ac ag : Bool) (a b c : Symbol) (op : ArithOp)
    (h : binaryResult ac ag (some a) (some b) (some c) = some (some op)) :
    decidedOk ac ag [a, b, c] op = true := by
  have key : ∀ ac ag, ∀ a ∈ allSymbols, ∀ b ∈ allSymbols, ∀ c ∈ allSymbols,
      (match binaryResult ac ag (some a) (some b) (some c) with
        | some (some op) => decidedOk ac ag [a, b, c] op | _ => true) = true := by decide +kernel
  have := key ac ag a (mem_allSymbols a) b (mem_allSymbols b) c (mem_allSymbols c)
  rw [h] at this; exact this

theorem toRes_ok {s r : Input} {d : Option (Option ArithOp)} {op : ArithOp}
    (h : toRes s d = .ok r op) : d = some (some op) ∧ r = s.drop op.text.length := by
  rcases d with _ | _ | o
  · cases h
  · cases h
  · simp only [toRes, Res.ok.injEq] at h
    obtain ⟨h1, rfl⟩ := h
    exact ⟨rfl, h1.symm⟩

theorem decided_spec {ac ag : Bool} {sy : List Symbol} {op : ArithOp} {t : Input}
    (h : decidedOk ac ag sy op = true) :
    (sy.map Symbol.char ++ t = op.text ++ (sy.map Symbol.char ++ t).drop op.text.length) ∧
    (ac = false → op.text ≠ [',']) ∧
    (ag = false → op.text ≠ ['>'] ∧ op.text ≠ ['>', '>']) ∧
    op.text ≠ ['~'] ∧ op.text ≠ ['!'] ∧ op.text ≠ ['+', '+'] ∧ op.text ≠ ['-', '-'] := by
  simp only [decidedOk, Bool.and_eq_true, decide_eq_true_eq, Bool.or_eq_true, bne_iff_ne] at h
  obtain ⟨⟨⟨⟨⟨⟨h1, h2⟩, h3⟩, h4⟩, h5⟩, h6⟩, h7⟩ := h
  refine ⟨?_, ?_, ?_, h4, h5, h6, h7⟩
  · obtain ⟨u, hu⟩ := h1
    rw [← hu]; simp
  · intro hac; rcases h2 with h | h
    · rw [hac] at h; cases h
    · exact h
  · intro hag; rcases h3 with h | h
    · rw [hag] at h; cases h
    · exact h

/-- **C47.** When the binary operator parser succeeds, the text of the operator
followed by the remainder is the input; the operator is not the comma when the
context forbids it, neither `>` nor `>>` when the context forbids them, and never
one of the unary operators `~`, `!`, `++`, `--`. -/
theorem binary_sound {ac ag : Bool} {s r : Input} {op : ArithOp}
    (h : binaryExprMiddle ac ag s = .ok r op) :
    s = op.text ++ r ∧ (ac = false → op.text ≠ [',']) ∧
    (ag = false → op.text ≠ ['>'] ∧ op.text ≠ ['>', '>']) ∧
    op.text ≠ ['~'] ∧ op.text ≠ ['!'] ∧ op.text ≠ ['+', '+'] ∧ op.text ≠ ['-', '-'] := by
  rcases binary_run ac ag s with ⟨hn, he⟩ | ⟨a, t, rfl, hn, he⟩ | ⟨a, b, t, rfl, hn, he⟩ |
    ⟨a, b, c, t, rfl, he⟩
  · rw [he] at h; cases h
  · rw [he] at h
    obtain ⟨h1, rfl⟩ := toRes_ok h
    exact decided_spec (sy := [a]) (decided1 ac ag a op h1)
  · rw [he] at h
    obtain ⟨h1, rfl⟩ := toRes_ok h
    exact decided_spec (sy := [a, b]) (decided2 ac ag a b op h1)
  · rw [he] at h
    obtain ⟨h1, rfl⟩ := toRes_ok h
    exact decided_spec (sy := [a, b, c]) (decided3 ac ag a b c op h1)

/-- The binary operators of C++ (assignments and pointer-to-member included),
except the comma and those made of `>` only. -/
def cppBinaryOps : List String :=
  ["+", "-", "*", "/", "%", "^", "&", "|", "=", "<", "+=", "-=", "*=", "/=", "%=", "^=", "&=", "|=",
   "<<", ">>=", "<<=", "==", "!=", "<=", ">=", "<=>", "&&", "||", "->*"]

/-- Operators that are read with the given flags. -/
def readable (ac ag : Bool) : List String :=
  cppBinaryOps ++ (if ac then [","] else []) ++ (if ag then [">", ">>"] else [])

/-- **C47.** Every binary operator of C++ is read in full, when it is not followed
by another operator character: `,` when commas are allowed, `>` and `>>` when they
are allowed, and every other binary operator in all contexts. -/
theorem binary_complete (ac ag : Bool) {w : String} (hw : w ∈ readable ac ag)
    {rest : Input} (hr : ∀ c t, rest = c :: t → c ∉ "+-*/%^&|~!=<>,".toList) :
    ∃ op, op.text = w.toList ∧ binaryExprMiddle ac ag (w.toList ++ rest) = .ok rest op := by
  have hn : NoSym rest := by
    intro y t h
    have := hr _ _ h
    cases y <;> exact this (by decide)
  have hall : ∀ ac ag, ∀ w ∈ readable ac ag,
      (match w.toList.map symbolOf with
      | [some a] => [a].map Symbol.char == w.toList && (match binaryResult ac ag (some a) none none with
          | some (some op) => op.text == w.toList | _ => false)
      | [some a, some b] => [a, b].map Symbol.char == w.toList && (match binaryResult ac ag (some a) (some b) none with
          | some (some op) => op.text == w.toList | _ => false)
      | [some a, some b, some c] => [a, b, c].map Symbol.char == w.toList && (match binaryResult ac ag (some a) (some b) (some c) with
          | some (some op) => op.text == w.toList | _ => false)
      | _ => false) = true := by decide +kernel
  have h := hall ac ag w hw
  split at h
  · rename_i a heq
    rw [Bool.and_eq_true] at h
    have he : [a].map Symbol.char = w.toList := by simpa using h.1
    have h2 := h.2
    split at h2
    · rename_i op hop
      have ht : op.text = w.toList := by simpa using h2
      refine ⟨op, ht, ?_⟩
      have := binary_run1 ac ag a hn
      rw [hop] at this
      rw [← he]
      rw [← he] at ht
      simp only [List.map_cons, List.map_nil, List.cons_append, List.nil_append] at ht ⊢
      rw [this, toRes, ht]; rfl
    · cases h2
  · rename_i a b heq
    rw [Bool.and_eq_true] at h
    have he : [a, b].map Symbol.char = w.toList := by simpa using h.1
    have h2 := h.2
    split at h2
    · rename_i op hop
      have ht : op.text = w.toList := by simpa using h2
      refine ⟨op, ht, ?_⟩
      have := binary_run2 ac ag a b hn
      rw [hop] at this
      rw [← he]
      rw [← he] at ht
      simp only [List.map_cons, List.map_nil, List.cons_append, List.nil_append] at ht ⊢
      rw [this, toRes, ht]; rfl
    · cases h2
  · rename_i a b c heq
    rw [Bool.and_eq_true] at h
    have he : [a, b, c].map Symbol.char = w.toList := by simpa using h.1
    have h2 := h.2
    split at h2
    · rename_i op hop
      have ht : op.text = w.toList := by simpa using h2
      refine ⟨op, ht, ?_⟩
      have := binary_run3 ac ag a b c rest
      rw [hop] at this
      rw [← he]
      rw [← he] at ht
      simp only [List.map_cons, List.map_nil, List.cons_append, List.nil_append] at ht ⊢
      rw [this, toRes, ht]; rfl
    · cases h2
  · cases h

/-- **C47, refuted as stated.** There are inputs on which the parser panics. -/
theorem binary_panics_exist : ∃ s, binaryExprMiddle true true s = .panic :=
  ⟨"**x".toList, (binary_panics_iff true true _).2 ⟨'*', by decide, ['x'], rfl, by simp⟩⟩

example : binaryExprMiddle false false ">>=x".toList = .ok ['x'] (.basic .greater true true) := by
  with_unfolding_all rfl
example : binaryExprMiddle true false ">> x".toList = .err := by with_unfolding_all rfl
example : "->*" ∈ readable false false := by decide +kernel

end Verif.Cpp
