/-
C63, C64: how C++ entities are spelled.

A specification, independent of the parser and of the display code: `Spells a t`
says that the text `t` is a spelling of the entity `a`.  It covers types made of
cv-qualifiers, C-style names, scoped and templated names, functions, pointers, members
pointers, references, arrays, vectors, operators, destructors, `decltype`, lambdas and other
anonymous entities, attributes, `noexcept`, trailing return types and conversion operators, nested
without limit, with free use of blanks.

Values are expressions made of literals, names, casts, unary operators, `sizeof` and `declval` of types,
parentheses, binary operators, `?:`, calls, indexing, member access, postfix operators and pack
expansions.  Expressions that the parser reads otherwise are left out; the conditions on `value` and on
what follows a value say which.  Template arguments are types, or values that cannot be mistaken for types.

Not covered: `new` expressions.

The relation is indexed by a condition on the characters of character literals: the parser reads all of
them, but the display code only writes some of them as the parser expects them.
-/
import Verif.Cpp.Ast
import Verif.Cpp.AtomsProps
import Verif.Intern.Path

set_option autoImplicit false
set_option linter.unusedVariables false

namespace Verif.Cpp

/-! ## Words and blanks -/

/-- Only blanks. -/
def Blank (t : List Char) : Prop := ∀ c ∈ t, P.isSpace c = true

/-- The text starts with a character that may continue an identifier. -/
def idHead : List Char → Bool
  | c :: _ => isIdCont c
  | [] => false

/-- Words separated by blanks. -/
inductive Words : List String → List Char → Prop where
  | nil : Words [] []
  | one (w : String) : Words [w] w.toList
  | cons (w : String) (b : List Char) (w' : String) (ws : List String) (t : List Char) :
      Blank b → b ≠ [] → Words (w' :: ws) t → Words (w :: w' :: ws) (w.toList ++ b ++ t)

/-- A spelling of cv-qualifiers: any order, any repetition. -/
def CvText (cv : CV) (t : List Char) : Prop :=
  ∃ ws, (∀ w ∈ ws, w ∈ cvWords) ∧ Words ws t ∧ cv = ⟨ws.contains "const", ws.contains "volatile"⟩

/-- A spelling of a C-style type name: its keywords in any order. -/
def LegacyText (n : LegacyName) (t : List Char) : Prop := ∃ ws, Denotes ws n ∧ Words ws t

/-- The text is an identifier. -/
def IsIdent (i : Ident) : Prop :=
  (∀ c ∈ i, isIdCont c = true) ∧ ∃ c cs, i = c :: cs ∧ isIdStart c = true

/-- Words that cannot start an entity that is not what they say. -/
def hardReserved : List String :=
  cvWords ++ legacyWords ++ ["typename", "class", "struct", "enum", "union", "restrict", "__restrict",
    "__restrict__", "__attribute__", "__vector", "auto", "lambda", "anonymous", "unnamed",
    "new", "delete", "co_await", "noexcept"]

/-- Identifiers that are not used as names. -/
def reserved : List String := ["operator", "decltype"] ++ hardReserved

/-- An identifier used as a name. -/
def IsName (i : Ident) : Prop := IsIdent i ∧ ∀ w ∈ reserved, i ≠ w.toList

/-- Decimal digits of a number. -/
def digits (n : Nat) : List Char := (toString n).toList

/-! ## Leaves -/

/-- The spelling of an absolute file path, other than `/`: it contains no colon. -/
def PathText (file t : List Char) : Prop :=
  (∃ r, t = '/' :: r) ∧ ':' ∉ t ∧ Intern.normalize t ≠ [] ∧ (Intern.normalize t).length < 255 ∧
    file = Intern.boxedPath (['/'] :: Intern.normalize t)

/-- The spelling of a source location. -/
def LocText (l : Loc) (t : List Char) : Prop :=
  l.line < 2 ^ 32 ∧ l.col < 2 ^ 32 ∧
  ∃ p, PathText l.file p ∧ t = p ++ ':' :: digits l.line ++ ':' :: digits l.col

/-- Digits and their values. -/
def digitTable : List (Char × Nat) :=
  [('0', 0), ('1', 1), ('2', 2), ('3', 3), ('4', 4), ('5', 5), ('6', 6), ('7', 7), ('8', 8), ('9', 9),
    ('a', 10), ('b', 11), ('c', 12), ('d', 13), ('e', 14), ('f', 15),
    ('A', 10), ('B', 11), ('C', 12), ('D', 13), ('E', 14), ('F', 15)]

/-- The text is a numeral in the base, and stands for the number. -/
inductive Numeral (base : Nat) : List Char → Nat → Prop where
  | one (c : Char) (v : Nat) : (c, v) ∈ digitTable → v < base → Numeral base [c] v
  | more (t : List Char) (n : Nat) (c : Char) (v : Nat) : Numeral base t n → (c, v) ∈ digitTable → v < base →
      Numeral base (t ++ [c]) (n * base + v)

/-- The spelling of a character between quotes: itself, an octal or hexadecimal code, or a simple
escape sequence. -/
def CharText (c : Char) (t : List Char) : Prop :=
  (c ≠ '\\' ∧ t = [c]) ∨
  (∃ d, Numeral 8 d c.toNat ∧ c.toNat < 256 ∧ t = '\\' :: d) ∨
  (∃ p d, p ∈ ['x', 'u', 'U'] ∧ Numeral 16 d c.toNat ∧ t = '\\' :: p :: d) ∨
  (c, t) ∈ [('\t', "\\t".toList), ('\r', "\\r".toList), ('\n', "\\n".toList), ('\'', "\\'".toList),
    ('"', "\\\"".toList), ('\\', "\\\\".toList), (Char.ofNat 0, "\\0".toList)]

/-- A letter of an integer suffix such as `UL`. -/
def IntLetter (c : Char) : Prop := c ∈ ['u', 'U', 'l', 'L', 'z', 'Z']

/-- All characters. -/
def AnyChar (c : Char) : Prop := True

/-- Printable ASCII characters, and those with a simple escape sequence. -/
def PlainChar (c : Char) : Prop :=
  (32 ≤ c.toNat ∧ c.toNat < 127) ∨ c ∈ ['\t', '\r', '\n', Char.ofNat 0]

/-- The spelling of a literal. -/
inductive LitText (K : Char → Prop) : Literal → List Char → Prop where
  /-- integers with an optional standard suffix -/
  | pos (n : Nat) (us : List Char) : n < 2 ^ 63 → (∀ c ∈ us, IntLetter c) →
      LitText K ⟨.i64 n, none⟩ (digits n ++ us)
  | neg (n : Nat) (us : List Char) : 0 < n → n ≤ 2 ^ 63 → (∀ c ∈ us, IntLetter c) →
      LitText K ⟨.i64 (-(n : Int)), none⟩ ('-' :: digits n ++ us)
  | large (n : Nat) (us : List Char) : 2 ^ 63 ≤ n → n < 2 ^ 64 → (∀ c ∈ us, IntLetter c) →
      LitText K ⟨.u64 n, none⟩ (digits n ++ us)
  /-- characters with an optional encoding prefix -/
  | chr (pre : String) (c : Char) (t : List Char) : pre ∈ ["", "u8", "u", "U", "L"] → K c → CharText c t →
      LitText K ⟨.chr c, none⟩ (pre.toList ++ '\'' :: t ++ ['\''])
  /-- a custom suffix -/
  | suffix (v : LitVal) (t i : List Char) : LitText K ⟨v, none⟩ t → IsIdent i →
      (∀ c cs, i = c :: cs → ¬ IntLetter c) → LitText K ⟨v, some i⟩ (t ++ i)

/-- Arithmetic operators that C++ can declare, or that look so. -/
def ArithOp.canonical : ArithOp → Bool
  | .basic .assignEq true false => false  -- `==` is an equal sign after an equal sign
  | .basic _ _ _ => true
  | .deref _ => true
  | .spaceship => true

/-- What follows `operator`. -/
inductive OpText : Ast .op → List Char → Prop where
  | arith (o : ArithOp) : o.canonical = true → OpText (.arith o) o.text
  | call : OpText (.callIndex false) "()".toList
  | index : OpText (.callIndex true) "[]".toList
  | custom (b b' i : List Char) : Blank b → Blank b' → IsIdent i →
      OpText (.customLit i) (b ++ "\"\"".toList ++ b' ++ i)
  | newDelete (b : List Char) (d a : Bool) : Blank b → b ≠ [] →
      OpText (.newDelete d a) (b ++ (if d then "delete" else "new").toList ++ (if a then "[]".toList else []))
  | coAwait (b : List Char) : Blank b → b ≠ [] → OpText .coAwait (b ++ "co_await".toList)

/-! ## Shapes of entities -/

/-- The name ends with an operator, other than a conversion. -/
def Ast.uidOp : Ast .uid → Bool
  | .opId (.conversion _) _ => false
  | .opId _ _ => true
  | _ => false

/-- The name is a conversion operator: it ends with a type. -/
def Ast.uidConv : Ast .uid → Bool
  | .opId (.conversion _) _ => true
  | _ => false

def Ast.idConv : Ast .idExpr → Bool
  | .idExpr _ u => u.uidConv

def Ast.simpleConv : Ast .simple → Bool
  | .stId i => i.idConv
  | _ => false

def Ast.idOp : Ast .idExpr → Bool
  | .idExpr _ u => u.uidOp

def Ast.simpleOp : Ast .simple → Bool
  | .stId i => i.idOp
  | _ => false

/-- The type ends with the name of an operator. -/
def Ast.tyOp : Ast .ty → Bool
  | .ty _ _ s d => d.isNil && s.simpleOp

/-- The type has no attributes. -/
def Ast.noAttr : Ast .ty → Bool
  | .ty a _ _ _ => a.isNil

/-- The function has a trailing return type. -/
def Ast.trails : Ast .sig → Bool
  | .sig _ _ _ _ _ _ tr => !tr.isNone

/-- A plain name, not a destructor. -/
def Ast.plain : Ast .uid → Bool
  | .named d _ _ => !d
  | _ => false

def Ast.scopePlain : Ast .scope → Bool
  | .scope u _ => u.plain

/-- A list of scopes starts with a plain name. -/
def Ast.namedFirst : Ast (.list .scope) → Bool
  | .cons a _ => a.scopePlain
  | .nil => false

/-- Kinds of declarator operators. -/
inductive DKind where
  | cv | ptr | ref | arr | fn | paren | vec
  deriving DecidableEq

def Ast.kind : Ast .declop → DKind
  | .dCv _ => .cv
  | .dPtr _ _ _ => .ptr
  | .dRef _ => .ref
  | .dArr _ => .arr
  | .dFun _ => .fn
  | .dParen _ => .paren
  | .dVec _ => .vec

/-- The kind of the first operator. -/
def Ast.first : Ast (.list .declop) → Option DKind
  | .nil => Option.none
  | .cons d _ => Option.some d.kind

/-- Declarator operators that may follow each other: qualifiers and references do not follow
each other (they would be one), and nothing follows a function. -/
def mayFollow : DKind → Option DKind → Bool
  | .fn, some _ => false
  | .cv, some .cv => false
  | .ptr, some .cv => false
  | .ref, some .ref => false
  | _, _ => true

/-! ## Shapes of values -/

/-- Binary operators, and what they are read as. -/
def binaryTable : List (String × ArithOp) :=
  [("+", .basic .addPlus false false), ("-", .basic .subNeg false false), ("*", .basic .mulDeref false false),
    ("/", .basic .div false false), ("%", .basic .mod false false), ("^", .basic .xor false false),
    ("&", .basic .andRef false false), ("|", .basic .or false false), ("=", .basic .assignEq false false),
    ("<", .basic .less false false), (">", .basic .greater false false), (",", .basic .comma false false),
    ("+=", .basic .addPlus false true), ("-=", .basic .subNeg false true), ("*=", .basic .mulDeref false true),
    ("/=", .basic .div false true), ("%=", .basic .mod false true), ("^=", .basic .xor false true),
    ("&=", .basic .andRef false true), ("|=", .basic .or false true), ("==", .basic .assignEq false true),
    ("!=", .basic .not false true), ("<=", .basic .less false true), (">=", .basic .greater false true),
    ("&&", .basic .andRef true false), ("||", .basic .or true false), ("<<", .basic .less true false),
    (">>", .basic .greater true false), ("<<=", .basic .less true true), (">>=", .basic .greater true true),
    ("<=>", .spaceship), ("->", .deref false), ("->*", .deref true)]

/-- `,` -/
def isComma (o : ArithOp) : Bool := o = .basic .comma false false

/-- `>` and `>>` -/
def isGreater (o : ArithOp) : Bool := o = .basic .greater false false || o = .basic .greater true false

/-- `->` and `->*` -/
def isArrow : ArithOp → Bool
  | .deref _ => true
  | _ => false

/-- `&` and `&&` -/
def isAmp (o : ArithOp) : Bool := o = .basic .andRef false false || o = .basic .andRef true false

/-- Some binary operator outside brackets has the property. -/
def Ast.outer (p : ArithOp → Bool) : {s : S} → Ast s → Bool
  | _, .value h l => h.outer p || l.outer p
  | _, .hUnary _ v => v.outer p
  | _, .cons a l => a.outer p || l.outer p
  | _, .aBinary o v => o.outer p || v.outer p
  | _, .arith o => p o
  | _, .aTernary v w => v.outer p || w.outer p
  | _, _ => false

/-- The header of a value ends with a value, which takes all that follows. -/
def Ast.isOpen : Ast .header → Bool
  | .hUnary _ _ => true
  | _ => false

/-- The header is a name. -/
def Ast.isName : Ast .header → Bool
  | .hId _ => true
  | _ => false

/-- The first operator after a value, if it is a binary one. -/
def Ast.firstOp : Ast (.list .after) → Option ArithOp
  | .cons (.aBinary (.arith o) _) _ => Option.some o
  | _ => Option.none

/-- The arguments, if a value is followed by a call. -/
def Ast.firstCall : Ast (.list .after) → Option (Ast (.list .value))
  | .cons (.aCall l) _ => Option.some l
  | _ => Option.none

/-- The value after an arrow. -/
def Ast.firstArrow : Ast (.list .after) → Option (Ast .value)
  | .cons (.aBinary (.arith (.deref false)) v) _ => Option.some v
  | _ => Option.none

/-- The value after a call and an arrow. -/
def Ast.arrowed : Ast (.list .after) → Option (Ast .value)
  | .cons (.aCall _) l => l.firstArrow
  | _ => Option.none

/-- Characters that end a type inside an expression. -/
def typeEnders : List Char := ['+', '-', '/', '%', '^', '|', '=', '!', '?', '.', '\'']

/-- What follows a name shows that it is not a type. -/
def Ast.endsType : Ast (.list .after) → Bool
  | .cons (.aBinary (.arith o) _) _ => o.text.head?.any (fun c => typeEnders.contains c)
  | .cons (.aTernary _ _) _ => true
  | .cons (.aMember _) _ => true
  | .cons (.aPostfix _) _ => true
  | .cons .aEllipsis _ => true
  | _ => false

def Ast.headerNotType : Ast .header → Bool
  | .hLit _ => true
  | .hUnary _ _ => true
  | .hParen _ => true
  | .hEllipsis => true
  | _ => false

/-- A value that cannot be mistaken for a type. -/
def Ast.notType : Ast .value → Bool
  | .value h l => h.headerNotType || (h.isName && l.endsType)

/-- The value starts with `...`, as the first parameter of a function might. -/
def Ast.headerDots : Ast .header → Bool
  | .hEllipsis => true
  | _ => false

def Ast.dots : Ast .value → Bool
  | .value h _ => h.headerDots

/-- What follows a parenthesized value shows that it is not a cast. -/
def Ast.noCast : Ast (.list .after) → Bool
  | .nil => true
  | .cons (.aBinary (.arith o) _) _ => o.text.head?.any (fun c => ['/', '%', '^', '|', '=', '<', '>', ',', '!'].contains c)
  | .cons (.aTernary _ _) _ => true
  | .cons (.aMember _) _ => true
  | .cons (.aIndex _) _ => true
  | _ => false

/-- The value is a name or calls of names, which are also types and function types. -/
inductive AsType : {s s' : S} → Ast s → Ast s' → Prop where
  | name (i : Ast .idExpr) : AsType (Ast.value (.hId i) .nil) (Ast.ty .nil CV.none (.stId i) .nil)
  | call (i : Ast .idExpr) (l : Ast (.list .value)) (p : Ast (.list .ty)) : AsType l p →
      AsType (Ast.value (.hId i) (.cons (.aCall l) .nil))
        (Ast.ty .nil CV.none (.stId i) (.cons (.dFun (.sig none p false CV.none .none .nxNone .none)) .nil))
  | nil : AsType (Ast.nil : Ast (.list .value)) (Ast.nil : Ast (.list .ty))
  | cons (v : Ast .value) (l : Ast (.list .value)) (a : Ast .ty) (p : Ast (.list .ty)) : AsType v a → AsType l p →
      AsType (Ast.cons v l) (Ast.cons a p)

/-- Arguments that are not read as parameters: some names, then a value that cannot be mistaken for a type
or an ellipsis. -/
inductive Refused : Ast (.list .value) → Prop where
  | here (v : Ast .value) (l : Ast (.list .value)) : v.notType = true → v.dots = false →
      Refused (.cons v l)
  | later (v : Ast .value) (a : Ast .ty) (l : Ast (.list .value)) : AsType v a → Refused l → Refused (.cons v l)

/-- What may follow a name: no `<`, which would start template arguments; in a call, the arguments must be
known to be readable as parameters, or not to be. -/
def NameFollow (l : Ast (.list .after)) : Prop :=
  l.firstOp ≠ some (.basic .less false false) ∧
  (∀ a, l.firstCall = Option.some a → Refused a ∨ ∃ p : Ast (.list .ty), AsType a p) ∧
  (∀ v, l.arrowed = Option.some v → v.notType = true ∨ ∃ a : Ast .ty, AsType v a)

/-- What may follow the start of a value. -/
def MayTrail : Ast .header → Ast (.list .after) → Prop
  | .hUnary _ _, l => l = .nil
  | .hId _, l => NameFollow l
  | .hParen v, l => v.notType = true ∨ ((∃ a : Ast .ty, AsType v a) ∧ l.noCast = true)
  | _, _ => True

/-- A literal number. -/
def Literal.isNum : Literal → Bool
  | ⟨.chr _, _⟩ => false
  | _ => true

def Literal.negative : Literal → Bool
  | ⟨.i64 n, _⟩ => decide (n < 0)
  | _ => false

def Symbol.sign : Symbol → Bool
  | .addPlus => true
  | .subNeg => true
  | _ => false

/-- The value starts with a digit or a sign. -/
def Ast.signed : Ast .value → Bool
  | .value (.hLit l) _ => l.isNum
  | .value (.hUnary (.arith (.basic y _ _)) _) _ => y.sign
  | _ => false

/-- The first name of a scope, a path or an expression. -/
def Ast.scopeUid : Ast .scope → Ast .uid
  | .scope u _ => u

def Ast.pathRooted : Ast .path → Bool
  | .path r _ => r

def Ast.scopesUid (u : Ast .uid) : Ast (.list .scope) → Ast .uid
  | .nil => u
  | .cons a _ => a.scopeUid

def Ast.pathUid (u : Ast .uid) : Ast .path → Ast .uid
  | .path _ l => Ast.scopesUid u l

def Ast.idUid : Ast .idExpr → Ast .uid
  | .idExpr p u => Ast.pathUid u p

def Ast.idRooted : Ast .idExpr → Bool
  | .idExpr p _ => p.pathRooted

/-- A destructor. -/
def Ast.tilde : Ast .uid → Bool
  | .named d _ _ => d
  | _ => false

/-- The value starts with a character of an operator. -/
def Ast.symHead : Ast .value → Bool
  | .value (.hLit l) _ => l.negative
  | .value (.hUnary (.arith _) _) _ => true
  | .value (.hId i) _ => !i.idRooted && i.idUid.tilde
  | _ => false

/-- The value starts with `&` or `::`. -/
def Ast.ampHead : Ast .value → Bool
  | .value (.hUnary (.arith (.basic y _ _)) _) _ => y = .andRef
  | .value (.hId i) _ => i.idRooted
  | _ => false

/-- A name that starts a value: not mistaken for `new`, `sizeof` or `declval`. -/
def ValueName (t : List Char) : Prop :=
  (∀ r, t ≠ "new".toList ++ r) ∧ (∀ r, t ≠ "::new".toList ++ r) ∧
  t.takeWhile isIdCont ≠ "sizeof".toList ∧ t.takeWhile isIdCont ≠ "declval".toList

/-- Qualifiers of a pointer, after the star. -/
inductive PtrQuals : CV → Bool → List Char → Prop where
  | none : PtrQuals CV.none false []
  | cv (cv : CV) (b t : List Char) : cv ≠ CV.none → Blank b → CvText cv t → PtrQuals cv false (b ++ t)
  | restrict (b : List Char) (w : String) : Blank b → w ∈ ["restrict", "__restrict", "__restrict__"] →
      PtrQuals CV.none true (b ++ w.toList)
  | cvRestrict (cv : CV) (b t b' : List Char) (w : String) : cv ≠ CV.none → Blank b → CvText cv t →
      Blank b' → b' ≠ [] → w ∈ ["restrict", "__restrict", "__restrict__"] →
      PtrQuals cv true (b ++ t ++ b' ++ w.toList)

/-- Qualifiers of a function: cv, reference. -/
def SigQuals (cv : CV) (ref : Ref) (t : List Char) : Prop :=
  ∃ b1 ct b2, CvText cv ct ∧ Blank b1 ∧ Blank b2 ∧ (ct = [] → b1 = []) ∧ (ref = .none → b2 = []) ∧
    t = b1 ++ ct ++ b2 ++ ref.show

/-- The ABI tag of a function. -/
def abiText : Option Ident → List Char
  | some i => "[abi:".toList ++ i ++ [']']
  | none => []

/-! ## Spellings -/

/-- The text is a spelling of the entity. -/
inductive Spells (K : Char → Prop) : {s : S} → Ast s → List Char → Prop where
  /-- a type: cv-qualifiers, name, declarator -/
  | ty {cv : CV} {ct b1 : List Char} {simple : Ast .simple} {st b2 : List Char}
      {decl : Ast (.list .declop)} {dt : List Char} :
      CvText cv ct → Blank b1 → (ct = [] ↔ b1 = []) → Spells K simple st → Blank b2 → Spells K decl dt →
      (decl = .nil → b2 = []) → (idHead dt = true → b2 ≠ []) →
      (simple.simpleOp = true → b2 = [] ∧ (decl.first = none ∨ decl.first = some .fn)) →
      (simple.simpleConv = true → decl = .nil) →
      Spells K (.ty .nil cv simple decl) (ct ++ b1 ++ st ++ b2 ++ dt)
  /-- a type with attributes -/
  | tyAttr {l : Ast (.list .value)} {t b : List Char} {cv : CV} {simple : Ast .simple}
      {decl : Ast (.list .declop)} {tt : List Char} :
      l ≠ .nil → Spells K (.args l) t → Blank b → Spells K (.ty .nil cv simple decl) tt →
      Spells K (.ty l cv simple decl) ("__attribute__(".toList ++ t ++ ')' :: b ++ tt)
  | legacy {n : LegacyName} {t : List Char} : LegacyText n t → Spells K (.stLegacy n) t
  | auto {n : Nat} : n < 2 ^ 32 → Spells K (.stAuto n) ("auto:".toList ++ digits n)
  /-- a named type -/
  | stId {i : Ast .idExpr} {t : List Char} : Spells K i t → Spells K (.stId i) t
  /-- a named type after `class`, `struct`, ... -/
  | elaborated {i : Ast .idExpr} {t b : List Char} {w : String} :
      w ∈ ["typename", "class", "struct", "enum", "union"] → Blank b → b ≠ [] → Spells K i t →
      Spells K (.stId i) (w.toList ++ b ++ t)
  | idExpr {p : Ast .path} {pt : List Char} {u : Ast .uid} {ut : List Char} :
      Spells K p pt → Spells K u ut → Spells K (.idExpr p u) (pt ++ ut)
  | path {rooted : Bool} {l : Ast (.list .scope)} {t : List Char} : Spells K l t → l.len < 256 →
      Spells K (.path rooted l) ((if rooted then "::".toList else []) ++ t)
  | scopesNil : Spells K (.nil : Ast (.list .scope)) []
  | scopesCons {a : Ast .scope} {t : List Char} {l : Ast (.list .scope)} {tl : List Char} :
      Spells K a t → Spells K l tl → Spells K (.cons a l) (t ++ tl)
  | scope {u : Ast .uid} {t : List Char} : Spells K u t → u.uidConv = false → Spells K (.scope u .none) (t ++ "::".toList)
  | scopeSig {u : Ast .uid} {t : List Char} {sg : Ast .sig} {st b : List Char} :
      Spells K u t → u.uidConv = false → Spells K sg st → sg.trails = false → Blank b →
      Spells K (.scope u (.some sg)) (t ++ st ++ b ++ "::".toList)
  /-- a name, or a destructor -/
  | named {d : Bool} {i : Ident} : IsName i → Spells K (.named d i .none) ((if d then ['~'] else []) ++ i)
  | namedT {d : Bool} {i : Ident} {b : List Char} {tp : Ast .tparams} {t : List Char} : IsName i →
      Blank b → Spells K tp t → Spells K (.named d i (.some tp)) ((if d then ['~'] else []) ++ i ++ b ++ t)
  /-- an operator; `<<` is only considered with template arguments -/
  | opId {o : Ast .op} {t : List Char} : OpText o t → o ≠ .arith (.basic .less true false) →
      Spells K (.opId o .none) ("operator".toList ++ t)
  | opIdT {o : Ast .op} {t b : List Char} {tp : Ast .tparams} {tt : List Char} : OpText o t →
      Blank b → Spells K tp tt → Spells K (.opId o (.some tp)) ("operator".toList ++ t ++ b ++ tt)
  /-- a conversion operator -/
  | opConv {a : Ast .ty} {b t : List Char} : Blank b → b ≠ [] → Spells K a t → a.tyOp = false →
      Spells K (.opId (.conversion a) .none) ("operator".toList ++ b ++ t)
  | decltype {v : Ast .value} {b t b' : List Char} : Blank b → Spells K v t → v.outer isComma = false → Blank b' →
      Spells K (.decltype v) ("decltype(".toList ++ b ++ t ++ b' ++ [')'])
  | anonId {a : Ast .anon} {t : List Char} : Spells K a t → Spells K (.anonId a) t
  | clangLambda {l : Loc} {t : List Char} : LocText l t →
      Spells K (.clangLambda l) ("(lambda at ".toList ++ t ++ [')'])
  /-- `(anonymous)`, `(anonymous namespace)`, `(unnamed struct at ...)` -/
  | anonymous {w : String} : w ∈ ["anonymous", "unnamed"] →
      Spells K (.clangOther none none) ('(' :: w.toList ++ [')'])
  | anonymousKind {w : String} {i : Ident} : w ∈ ["anonymous", "unnamed"] → IsIdent i →
      Spells K (.clangOther (some i) none) ('(' :: w.toList ++ ' ' :: i ++ [')'])
  | anonymousAt {w : String} {i : Ident} {l : Loc} {t : List Char} : w ∈ ["anonymous", "unnamed"] →
      IsIdent i → LocText l t →
      Spells K (.clangOther (some i) (some l)) ('(' :: w.toList ++ ' ' :: i ++ " at ".toList ++ t ++ [')'])
  | libLambda {sg : Ast .sig} {t b : List Char} {n : Nat} : Spells K sg t → Blank b → n < 2 ^ 32 →
      Spells K (.libLambda sg n) ("{lambda".toList ++ t ++ b ++ '#' :: digits n ++ ['}'])
  | libUnnamed {n : Nat} : n < 2 ^ 32 →
      Spells K (.libUnnamed n) ("{unnamed type#".toList ++ digits n ++ ['}'])
  /-- template arguments -/
  | tpNil {b : List Char} : Blank b → Spells K (.tpList .nil) ('<' :: b ++ ['>'])
  | tpList {l : Ast (.list .tparam)} {b t b' : List Char} : l ≠ .nil → l.len < 1024 → Blank b →
      Spells K l t → Blank b' → Spells K (.tpList l) ('<' :: b ++ t ++ b' ++ ['>'])
  | tpVoid : Spells K .tpVoid "<, void>".toList
  | tparamsOne {a : Ast .tparam} {t : List Char} : Spells K a t → Spells K (.cons a .nil) t
  | tparamsCons {a : Ast .tparam} {t b b' : List Char} {l : Ast (.list .tparam)} {tl : List Char} :
      Spells K a t → Blank b → Blank b' → l ≠ .nil → Spells K l tl →
      Spells K (.cons a l) (t ++ b ++ ',' :: b' ++ tl)
  | tpTy {a : Ast .ty} {t : List Char} : Spells K a t → a.tyOp = false → Spells K (.tpTy a) t
  | tpVal {v : Ast .value} {t : List Char} : Spells K v t → v.notType = true → v.outer isComma = false →
      v.outer isGreater = false → Spells K (.tpVal v) t
  /-- function signatures: ABI tag, parameters, ellipsis, qualifiers, `noexcept`, trailing return type -/
  | sig0 {abi : Option Ident} {b : List Char} {cv : CV} {ref : Ref} {q : List Char} {nx : Ast .noexc}
      {nt : List Char} {tr : Ast (.opt .ty)} {rt : List Char} :
      (∀ i, abi = some i → IsIdent i) → Blank b → SigQuals cv ref q → Spells K nx nt → Spells K tr rt →
      Spells K (.sig abi .nil false cv ref nx tr) (abiText abi ++ '(' :: b ++ ')' :: q ++ nt ++ rt)
  | sig {abi : Option Ident} {l : Ast (.list .ty)} {variadic : Bool} {b t b' c c' : List Char} {cv : CV}
      {ref : Ref} {q : List Char} {nx : Ast .noexc} {nt : List Char} {tr : Ast (.opt .ty)} {rt : List Char} :
      (∀ i, abi = some i → IsIdent i) → l ≠ .nil → l.len < 256 → Blank b → Spells K l t → Blank b' →
      Blank c → Blank c' → SigQuals cv ref q → Spells K nx nt → Spells K tr rt →
      Spells K (.sig abi l variadic cv ref nx tr)
        (abiText abi ++ '(' :: b ++ t ++ b' ++
          (if variadic then ',' :: c ++ "...".toList ++ c' else []) ++ ')' :: q ++ nt ++ rt)
  | nxNone : Spells K .nxNone []
  | nxPlain {b : List Char} : Blank b → b ≠ [] → Spells K (.nxSome .none) (b ++ "noexcept".toList)
  | nxArg {b c : List Char} {v : Ast .value} {t c' : List Char} : Blank b → b ≠ [] → Blank c → Spells K v t →
      v.outer isComma = false → Blank c' → Spells K (.nxSome (.some v)) (b ++ "noexcept(".toList ++ c ++ t ++ c' ++ [')'])
  | trNone : Spells K (.none : Ast (.opt .ty)) []
  | trSome {b b' : List Char} {a : Ast .ty} {t : List Char} : Blank b → Blank b' → Spells K a t →
      a.tyOp = false → Spells K (.some a) (b ++ "->".toList ++ b' ++ t)
  | paramsOne {a : Ast .ty} {t : List Char} : Spells K a t → a.tyOp = false → Spells K (.cons a .nil) t
  | paramsCons {a : Ast .ty} {t b b' : List Char} {l : Ast (.list .ty)} {tl : List Char} :
      Spells K a t → a.tyOp = false → Blank b → Blank b' → l ≠ .nil → Spells K l tl →
      Spells K (.cons a l) (t ++ b ++ ',' :: b' ++ tl)
  /-- declarators -/
  | declNil : Spells K (.nil : Ast (.list .declop)) []
  | declCons {d : Ast .declop} {t b : List Char} {l : Ast (.list .declop)} {tl : List Char} :
      Spells K d t → Blank b → Spells K l tl → mayFollow d.kind l.first = true → (l = .nil → b = []) →
      (idHead tl = true → b ≠ []) → l.len < 255 → Spells K (.cons d l) (t ++ b ++ tl)
  | dCv {cv : CV} {t : List Char} : cv ≠ CV.none → CvText cv t → Spells K (.dCv cv) t
  | dPtr {cv : CV} {r : Bool} {q : List Char} : PtrQuals cv r q →
      Spells K (.dPtr (.path false .nil) cv r) ('*' :: q)
  | dMember {l : Ast (.list .scope)} {t : List Char} {cv : CV} {r : Bool} {q : List Char} :
      Spells K l t → l.namedFirst = true → l.len < 256 → PtrQuals cv r q →
      Spells K (.dPtr (.path false l) cv r) (t ++ '*' :: q)
  | dRef {r : Ref} : r ≠ .none → Spells K (.dRef r) r.show
  | dArr0 {b : List Char} : Blank b → Spells K (.dArr .none) ('[' :: b ++ [']'])
  | dArr {v : Ast .value} {b t b' : List Char} : Blank b → Spells K v t → v.outer isComma = false → Blank b' →
      Spells K (.dArr (.some v)) ('[' :: b ++ t ++ b' ++ [']'])
  | dFun {sg : Ast .sig} {t : List Char} : Spells K sg t → Spells K (.dFun sg) t
  | dParen {d : Ast (.list .declop)} {b t b' : List Char} : Blank b → Spells K d t → (d.first = some .ptr ∨ d.first = some .ref) →
      Blank b' → Spells K (.dParen d) ('(' :: b ++ t ++ b' ++ [')'])
  | dVec {v : Ast .value} {t : List Char} : Spells K v t → v.outer isComma = false →
      Spells K (.dVec v) ("__vector(".toList ++ t ++ [')'])
  /-- values: a header and what follows it -/
  | value {h : Ast .header} {t : List Char} {l : Ast (.list .after)} {tl : List Char} : Spells K h t → Spells K l tl →
      MayTrail h l → l.len < 64 → Spells K (.value h l) (t ++ tl)
  | hLit {l : Literal} {t : List Char} : LitText K l t → Spells K (.hLit l) t
  | hCast {a : Ast .ty} {b t b' c : List Char} {v : Ast .value} {tv : List Char} : Blank b → Spells K a t →
      (a.tyOp = true → b' = []) → Blank b' → Blank c → Spells K v tv →
      Spells K (.hUnary (.conversion a) v) ('(' :: b ++ t ++ b' ++ ')' :: c ++ tv)
  /-- unary operators; signs do not apply to numbers and signs -/
  | hUnary {y : Symbol} {b : List Char} {v : Ast .value} {t : List Char} :
      y ∈ [Symbol.addPlus, .subNeg, .mulDeref, .andRef, .not] → Blank b → Spells K v t →
      (y.sign = true → v.signed = false) →
      Spells K (.hUnary (.arith (.basic y false false)) v) (y.char :: b ++ t)
  /-- `++` and `--` -/
  | hIncDec {y : Symbol} {b : List Char} {v : Ast .value} {t : List Char} :
      y ∈ [Symbol.addPlus, .subNeg] → Blank b → Spells K v t →
      Spells K (.hUnary (.arith (.basic y true false)) v) (y.char :: y.char :: b ++ t)
  | hId {i : Ast .idExpr} {t : List Char} : Spells K i t → i.idOp = false → i.idConv = false →
      ValueName t → Spells K (.hId i) t
  | hParen {v : Ast .value} {b t b' : List Char} : Blank b → Spells K v t → Blank b' →
      Spells K (.hParen v) ('(' :: b ++ t ++ b' ++ [')'])
  | hSizeOf {a : Ast .ty} {t b : List Char} : Spells K a t → (a.tyOp = true → b = []) → Blank b →
      Spells K (.hSizeOf a) ("sizeof(".toList ++ t ++ b ++ [')'])
  | hDeclVal {a : Ast .ty} {t b : List Char} : Spells K a t → (a.tyOp = true → b = []) → Blank b →
      Spells K (.hDeclVal a) ("declval(".toList ++ t ++ b ++ [')'])
  /-- `...`, as an operand -/
  | hEllipsis : Spells K .hEllipsis "...".toList
  /-- what follows a value -/
  | trailNil : Spells K (.nil : Ast (.list .after)) []
  | trailCall {a : Ast (.list .value)} {b t : List Char} {l : Ast (.list .after)} {tl : List Char} : Blank b →
      Spells K (.args a) t → Spells K l tl → Spells K (.cons (.aCall a) l) (b ++ t ++ tl)
  | trailIndex {v : Ast .value} {b c t c' : List Char} {l : Ast (.list .after)} {tl : List Char} : Blank b → Blank c →
      Spells K v t → v.outer isComma = false → Blank c' → Spells K l tl →
      Spells K (.cons (.aIndex v) l) (b ++ '[' :: c ++ t ++ c' ++ ']' :: tl)
  | trailMember {u : Ast .uid} {b c t : List Char} {l : Ast (.list .after)} {tl : List Char} : Blank b → Blank c →
      Spells K u t → u.uidOp = false → u.uidConv = false → Spells K l tl →
      l.firstOp ≠ some (.basic .less false false) → Spells K (.cons (.aMember u) l) (b ++ '.' :: c ++ t ++ tl)
  | trailEllipsis {b : List Char} {l : Ast (.list .after)} {tl : List Char} : Blank b → Spells K l tl →
      Spells K (.cons .aEllipsis l) (b ++ "...".toList ++ tl)
  /-- `++` and `--` after a value -/
  | trailPostfix {y : Symbol} {b : List Char} : y ∈ [Symbol.addPlus, .subNeg] → Blank b →
      Spells K (.cons (.aPostfix (.arith (.basic y true false))) .nil) (b ++ [y.char, y.char])
  /-- binary operators: they take all that follows; some need blanks -/
  | trailBinary {w : String} {o : ArithOp} {b c : List Char} {v : Ast .value} {t : List Char} : (w, o) ∈ binaryTable →
      Blank b → Blank c → Spells K v t → (o.text.head?.any (fun c => ['=', '>'].contains c) = true → b ≠ []) →
      (v.symHead = true → c ≠ [] ∧ isArrow o = false) → (isAmp o = true → v.ampHead = false) →
      Spells K (.cons (.aBinary (.arith o) v) .nil) (b ++ w.toList ++ c ++ t)
  | trailTernary {b c c' d : List Char} {v w : Ast .value} {t u : List Char} : Blank b → Blank c → Blank c' → Blank d →
      Spells K v t → v.outer isArrow = false → Spells K w u → (d = [] → w.ampHead = false) →
      Spells K (.cons (.aTernary v w) .nil) (b ++ '?' :: c ++ t ++ c' ++ ':' :: d ++ u)
  /-- arguments of a call, or of an attribute -/
  | args0 {b : List Char} : Blank b → Spells K (.args .nil) ('(' :: b ++ [')'])
  | args {l : Ast (.list .value)} {b t b' : List Char} : l ≠ .nil → l.len < 64 → Blank b → Spells K l t →
      Blank b' → Spells K (.args l) ('(' :: b ++ t ++ b' ++ [')'])
  | valuesOne {v : Ast .value} {t : List Char} : Spells K v t → v.outer isComma = false → Spells K (.cons v .nil) t
  | valuesCons {v : Ast .value} {t b b' : List Char} {l : Ast (.list .value)} {tl : List Char} :
      Spells K v t → v.outer isComma = false → Blank b → Blank b' → l ≠ .nil → Spells K l tl →
      Spells K (.cons v l) (t ++ b ++ ',' :: b' ++ tl)

end Verif.Cpp
