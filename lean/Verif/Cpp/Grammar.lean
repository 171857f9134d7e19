/-
The recursive grammar of C++ entities.

Models the `parse_*_imut` functions of cpparser/src/subparsers and
`EntityParser::parse_entity`.

The functions of the code call each other recursively.  Here the three functions
that every recursive cycle goes through (`parse_type_like`, `parse_value_like`,
`parse_declarator`) are passed as a record `Calls` to all the others, and the recursion
is tied by `level`, which allows a number of nested calls and reports `fuel` when
they are used up.  `typeLike`, `valueLike` and `declarator` allow one nested call
more than there are characters of input.  `GrammarProps` proves that they
satisfy the recursive equations of the code and never report `fuel`.

Simplifications, beyond those of `Nom`, `Atoms` and `Ast`:
* Interned keys are replaced by values, and the state of the interners is not
  modelled.  Interning a sequence panics when the sequence is too long for the
  length bits of its key (`Verif.Intern.SeqKey`), which is modelled; running out of keys
  after very many distinct entities is not.
* Paths are those of Unix.
* Stack overflow is not modelled.
-/
import Verif.Cpp.Ast
import Verif.Intern.Path

set_option autoImplicit false
set_option linter.unusedVariables false

namespace Verif.Cpp

/-! ## More combinators -/

namespace P

/-- Dispatch on the first character of input (`match s.as_bytes().first()`). -/
def byHead {α : Type} (f : Option Char → P α) : P α := fun s => f s.head? s

/-- Loop of `nom_supreme::multi::parse_separated_terminated`, after an item: either the
terminator, or a separator and one more item. -/
def sepTermTail {α : Type} (item : P α) (sep term : P Unit) (s : Input) : Res (List α) :=
  match term s with
  | .ok r _ => .ok r []
  | .panic => .panic
  | .fuel => .fuel
  | .err =>
    match (sep >>= fun _ => item) s with
    | .ok r a =>
      if r.length < s.length then
        match sepTermTail item sep term r with
        | .ok r' as => .ok r' (a :: as)
        | .err => .err
        | .panic => .panic
        | .fuel => .fuel
      else .err
    | .err => .err
    | .panic => .panic
    | .fuel => .fuel
termination_by s.length

/-- `nom_supreme::multi::parse_separated_terminated`. -/
def sepTerm {α : Type} (item : P α) (sep term : P Unit) : P (List α) := do
  let a ← item
  let as ← sepTermTail item sep term
  pure (a :: as)

/-- `char(c).and(multispace0)`. -/
def charSp (c : Char) : P Unit := do char c; space0

/-- `multispace0.and(char(c))`. -/
def spChar (c : Char) : P Unit := do space0; char c

/-- `multispace0.and(char(c)).and(multispace0)`. -/
def spCharSp (c : Char) : P Unit := do space0; char c; space0

/-- `nom::character::complete::{u32, u64}`: decimal digits, error on overflow. -/
def uint (bits : Nat) : P Nat :=
  mapOpt (takeWhile1 Char.isDigit) fun ds =>
    let v := ds.foldl (fun acc c => acc * 10 + (c.toNat - '0'.toNat)) 0
    if v < 2 ^ bits then some v else none

end P

/-- Intern a sequence whose key has the given number of length bits
(asylum/src/sequence.rs 41-60, panic in `SequenceEntry::intern`). -/
def internSeq {s : S} (bits : Nat) (l : List (Ast s)) : P (Ast (.list s)) :=
  if l.length < 2 ^ bits then pure (Ast.ofList l) else P.crash

/-! ## Literals (values/literals.rs) -/

/-- `nom::character::complete::i64`. -/
def int64 : P Int := do
  let neg ← P.or (do P.tag "-"; pure true) (P.or (do P.tag "+"; pure false) (pure false))
  P.mapOpt (P.takeWhile1 Char.isDigit) fun ds =>
    let v := ds.foldl (fun acc c => acc * 10 + (c.toNat - '0'.toNat)) 0
    if neg then (if v ≤ 2 ^ 63 then some (-(v : Int)) else none)
    else (if v < 2 ^ 63 then some (v : Int) else none)

/-- The `satisfy` of the integer suffix (values/literals.rs 161-164). -/
def isIntSuffix (c : Char) : Bool := c.toUpper == 'U' || c.toUpper == 'L' || c.toUpper == 'Z'

/-- `integer` (values/literals.rs 154-166). -/
def integer : P LitVal := do
  let v ← P.or (do let i ← int64; pure (LitVal.i64 i)) (do let u ← P.uint 64; pure (LitVal.u64 u))
  let _ ← P.many0 (P.verify P.anychar isIntSuffix)
  pure v

/-- Value of a digit in a radix of at most 16. -/
def hexVal (c : Char) : Nat :=
  if c.isDigit then c.toNat - '0'.toNat
  else if 'a' ≤ c ∧ c ≤ 'f' then c.toNat - 'a'.toNat + 10
  else c.toNat - 'A'.toNat + 10

/-- `oct_digit1.map_res(|s| u8::from_str_radix(s, 8))...` (values/literals.rs 187). -/
def octEscape : P Char :=
  P.mapOpt (P.takeWhile1 fun c => '0' ≤ c && c ≤ '7') fun ds =>
    let v := ds.foldl (fun acc c => acc * 8 + hexVal c) 0
    if v < 256 then some (Char.ofNat v) else none

/-- `hex_digit1.map_res(..).map_res(char::from_u32)` (values/literals.rs 190-192). -/
def hexEscape : P Char :=
  P.mapOpt (P.takeWhile1 fun c => c.isDigit || ('a' ≤ c && c ≤ 'f') || ('A' ≤ c && c ≤ 'F')) fun ds =>
    let v := ds.foldl (fun acc c => acc * 16 + hexVal c) 0
    if v < 2 ^ 32 && decide v.isValidChar then some (Char.ofNat v) else none

/-- The character of one `char(c).value(v)`. -/
def charVal (c v : Char) : P Char := do P.char c; pure v

/-- `escape_sequence` (values/literals.rs 181-193). -/
def escapeSequence : P Char :=
  P.or (charVal 't' '\t') <| P.or (charVal 'r' '\r') <| P.or (charVal 'n' '\n') <|
  P.or (charVal '\'' '\'') <| P.or (charVal '"' '"') <| P.or (charVal '\\' '\\') <|
  P.or octEscape <| do
    P.or (P.char 'x') (P.or (P.char 'u') (P.char 'U'))
    hexEscape

/-- `character` (values/literals.rs 169-199). -/
def character : P Char := do
  let _ ← P.opt (P.or (P.tag "u8") (P.or (P.char 'u') (P.or (P.char 'U') (P.char 'L'))))
  P.char '\''
  let c ← P.or (do P.char '\\'; escapeSequence) P.anychar
  P.char '\''
  pure c

/-- `EntityParser::parse_literal_imut` (values/literals.rs 18-27) with
`literal_value` (99-102). -/
def literal : P Literal := do
  let v ← P.or integer (do let c ← character; pure (LitVal.chr c))
  let suffix ← P.opt identifier
  pure ⟨v, suffix⟩

/-! ## Recursive calls -/

/-- The functions through which the grammar is recursive. -/
structure Calls where
  /-- `parse_type_like_imut` -/
  typeLike : P (Ast .ty)
  /-- `parse_value_like_imut` (arguments: `allow_comma`, `allow_greater`) -/
  valueLike : Bool → Bool → P (Ast .value)
  /-- `parse_declarator_imut` -/
  declarator : P (Ast (.list .declop))

/-! ## Functions (functions.rs) -/

/-- `parse_function_call_imut` (functions.rs 65-92). -/
def functionCall (R : Calls) : P (Ast (.list .value)) := do
  P.charSp '('
  P.or
    (do
      let l ← P.sepTerm (R.valueLike false true) (P.spCharSp ',') (P.spChar ')')
      internSeq 6 l)
    (do
      P.char ')'
      internSeq 6 [])

/-- `ParameterOrEllipsis` (functions.rs 216-222): `none` is the ellipsis. -/
def parameterOrEllipsis (R : Calls) : P (Option (Ast .ty)) :=
  P.or (do let t ← R.typeLike; pure (some t)) (do P.tag "..."; pure none)

/-- Fold function of the parameters (functions.rs 185-198): parameters, variadic, bad. -/
def pushParam (st : List (Ast .ty) × Bool × Bool) (item : Option (Ast .ty)) :
    List (Ast .ty) × Bool × Bool :=
  match st with
  | (entry, variadic, bad) =>
    if variadic || bad then (entry, variadic, true)
    else match item with
      | some p => (entry ++ [p], variadic, false)
      | none => (entry, true, false)

/-- `parse_function_parameter_set_imut` (functions.rs 167-213). -/
def parameterSet (R : Calls) : P (Ast (.list .ty) × Bool) := do
  P.charSp '('
  P.or
    (do
      let l ← P.sepTerm (parameterOrEllipsis R) (P.spCharSp ',') (P.spChar ')')
      match l.foldl pushParam ([], false, false) with
      | (entry, variadic, bad) =>
        if bad then P.fail
        else do
          let ps ← internSeq 8 entry
          pure (ps, variadic))
    (do
      P.char ')'
      let ps ← internSeq 8 []
      pure (ps, false))

/-- `char('(').and(multispace0)`, value, `multispace0.and(char(')'))`: an argument between
parentheses, as in `noexcept(..)`. -/
def parenValue (R : Calls) (ac ag : Bool) : P (Ast .value) := do
  P.charSp '('
  let v ← R.valueLike ac ag
  P.spChar ')'
  pure v

/-- `parse_noexcept_imut` (functions.rs 236-253). -/
def noexceptQ (R : Calls) : P (Ast .noexc) := do
  keyword "noexcept"
  let v ← P.opt (parenValue R false true)
  pure (.nxSome (Ast.ofOption v))

/-- The ABI tag (functions.rs 130). -/
def abiTag : P Ident := do
  P.tag "[abi:"
  let i ← identifier
  P.char ']'
  pure i

/-- `trailing_return` (functions.rs 133). -/
def trailingReturn (R : Calls) : P (Ast .ty) := do
  P.tag "->"
  P.space0
  R.typeLike

/-- `parse_function_signature_imut` (functions.rs 118-160). -/
def functionSignature (R : Calls) : P (Ast .sig) := do
  let abi ← P.opt abiTag
  let ps ← spaced (parameterSet R)
  let cv ← spaced parseCv
  let ref ← spaced parseReference
  let nx ← P.opt (spaced (noexceptQ R))
  let tr ← P.opt (trailingReturn R)
  pure (.sig abi ps.1 ps.2 cv ref (nx.getD .nxNone) (Ast.ofOption tr))

/-! ## Templates (templates.rs) -/

/-- The lookahead of template parameters (templates.rs 118, 121). -/
def tparamEnd : P Unit := do
  P.space0
  P.peek (P.or (P.char ',') (P.char '>'))

/-- `parse_template_parameter_imut` (templates.rs 108-124). -/
def templateParameter (R : Calls) : P (Ast .tparam) :=
  P.or
    (do let t ← R.typeLike; tparamEnd; pure (.tpTy t))
    (do let v ← R.valueLike false false; tparamEnd; pure (.tpVal v))

/-- `parse_template_parameters_imut` (templates.rs 45-78). -/
def templateParameters (R : Calls) : P (Ast .tparams) := do
  P.charSp '<'
  P.or
    (P.or
      (do
        let l ← P.sepTerm (templateParameter R) (P.spCharSp ',') (P.spChar '>')
        let k ← internSeq 10 l
        pure (.tpList k))
      (do
        P.char '>'
        let k ← internSeq 10 []
        pure (.tpList k)))
    (do P.tag ", void>"; pure .tpVoid)

/-! ## Anonymous entities (anonymous.rs) -/

/-- The text recognized as a path (anonymous.rs 155-156): an optional one-character disk
designator, then anything but a colon. -/
def pathText : P (List Char) := do
  let disk ← P.opt (do let c ← P.anychar; P.char ':'; pure c)
  let t ← P.takeWhile1 (fun c => c != ':')
  match disk with
  | some c => pure (c :: ':' :: t)
  | none => pure t

/-- `intern_path_imut` (lib.rs 163-168) on an interned path given by its text: relative
paths and paths of 256 or more components (counting the root) panic.  The value of the
key is the normalized path. -/
def internPath (p : List Char) : P (List Char) :=
  if Intern.isRelative p then P.crash
  else if (Intern.normalize p).length + 1 < 2 ^ 8 then
    pure (Intern.boxedPath (['/'] :: Intern.normalize p))
  else P.crash

/-- `parse_source_location_imut` (anonymous.rs 141-164). -/
def sourceLocation : P Loc := do
  let t ← pathText
  let f ← internPath t
  P.char ':'
  let line ← P.uint 32
  P.char ':'
  let col ← P.uint 32
  pure ⟨f, line, col⟩

/-- `parse_clang_lambda_imut` (anonymous.rs 55-64). -/
def clangLambda : P (Ast .anon) := do
  P.tag "(lambda at "
  let l ← sourceLocation
  P.char ')'
  pure (.clangLambda l)

/-- `parse_clang_anonymous_imut` (anonymous.rs 96-119). -/
def clangAnonymous : P (Ast .anon) := do
  P.char '('
  P.or (P.tag "anonymous") (P.tag "unnamed")
  let i ← P.opt (do P.char ' '; identifier)
  let l ← P.opt (do P.tag " at "; sourceLocation)
  P.char ')'
  pure (.clangOther i l)

/-- `parse_libiberty_lambda_imut` (anonymous.rs 72-88). -/
def libibertyLambda (R : Calls) : P (Ast .anon) := do
  P.tag "{lambda"
  let sg ← functionSignature R
  P.char '#'
  let n ← P.uint 32
  P.char '}'
  pure (.libLambda sg n)

/-- `parse_libiberty_unnamed_imut` (anonymous.rs 127-139). -/
def libibertyUnnamed : P (Ast .anon) := do
  P.tag "{unnamed type#"
  let n ← P.uint 32
  P.char '}'
  pure (.libUnnamed n)

/-- `parse_anonymous_imut` (anonymous.rs 37-52). -/
def anonymous (R : Calls) : P (Ast .anon) := P.byHead fun c =>
  if c = some '(' then P.or clangLambda clangAnonymous
  else P.or (libibertyLambda R) libibertyUnnamed

/-! ## Operator names (operators/overloads.rs) -/

/-- `parse_arith_and_templates_imut` (operators/overloads.rs 69-101). -/
def arithAndTemplates (R : Calls) (arith : P ArithOp) : P (Ast .op × Option (Ast .tparams)) := do
  let o ← arith
  P.space0
  let tp ← P.opt (templateParameters R)
  let sym ← P.peek (P.opt symbol)
  match sym with
  | none => pure (.arith o, tp)
  | some _ => P.fail

/-- `parse_custom_literal_imut` (operators/overloads.rs 104-112). -/
def customLiteral : P (Ast .op) := do
  P.tag "\"\""
  P.space0
  let i ← identifier
  pure (.customLit i)

/-- `call_or_index` (operators/overloads.rs 116-121). -/
def callOrIndex : P (Ast .op) :=
  P.or (do P.tag "()"; pure (.callIndex false)) (do P.tag "[]"; pure (.callIndex true))

/-- `new` (operators/overloads.rs 124-133). -/
def newOverload : P (Ast .op) := do
  keyword "new"
  let a ← P.opt (P.tag "[]")
  pure (.newDelete false a.isSome)

/-- `delete` (operators/mod.rs 358-367). -/
def deleteOp : P (Ast .op) := do
  keyword "delete"
  let a ← P.opt (P.tag "[]")
  pure (.newDelete true a.isSome)

/-- `co_await` (operators/mod.rs 370-374). -/
def coAwaitOp : P (Ast .op) := do
  keyword "co_await"
  pure .coAwait

/-- `template_oblivious` without its template parameters (operators/overloads.rs 41-50). -/
def otherOverload (R : Calls) : P (Ast .op) :=
  P.or (P.or callOrIndex (do P.space0; customLiteral))
    (do
      P.space1
      P.or (P.or (P.or newOverload deleteOp) coAwaitOp)
        (do let t ← R.typeLike; pure (.conversion t)))

/-- `parse_operator_overload_imut` (operators/overloads.rs 22-58). -/
def operatorOverload (R : Calls) : P (Ast .op × Option (Ast .tparams)) := do
  keyword "operator"
  P.or
    (P.or (P.or (arithAndTemplates R arith1) (arithAndTemplates R arith2))
      (arithAndTemplates R arith3))
    (do
      let o ← otherOverload R
      P.space0
      let tp ← P.opt (templateParameters R)
      pure (o, tp))

/-! ## Names (names/unqualified.rs, names/scopes.rs) -/

/-- `named(is_destructor)` (names/unqualified.rs 39-56). -/
def named (R : Calls) (destructor : Bool) : P (Ast .uid) := do
  let i ← identifier
  let tp ← P.opt (do P.space0; let _ ← parseCv; templateParameters R)
  pure (.named destructor i (Ast.ofOption tp))

/-- `operator` (names/unqualified.rs 58-64). -/
def operatorId (R : Calls) : P (Ast .uid) := do
  let o ← operatorOverload R
  pure (.opId o.1 (Ast.ofOption o.2))

/-- `decltype` (names/unqualified.rs 66-72). -/
def decltypeId (R : Calls) : P (Ast .uid) := do
  P.tag "decltype("
  P.space0
  let v ← R.valueLike false true
  P.spChar ')'
  pure (.decltype v)

/-- `parse_unqualified_id_imut` (names/unqualified.rs 27-90). -/
def unqualifiedId (R : Calls) : P (Ast .uid) := P.byHead fun c =>
  if c = some '{' ∨ c = some '(' then do let a ← anonymous R; pure (.anonId a)
  else if c = some 'd' then P.or (decltypeId R) (named R false)
  else if c = some 'o' then P.or (operatorId R) (named R false)
  else if c = some '~' then do P.char '~'; named R true
  else named R false

/-- `parse_cv` that finds something, or `parse_reference` that does (names/scopes.rs 186-191). -/
def cvOrRef : P Unit :=
  P.or (do let _ ← P.verify parseCv (fun c => c != CV.none); pure ())
    (do let _ ← P.verify parseReference (fun r => r != Ref.none); pure ())

/-- What follows the name of a scope (names/scopes.rs 174-196). -/
def scopeEnd (R : Calls) : P (Option (Ast .sig)) := do
  let sg ← P.opt (functionSignature R)
  let _ ← P.many0 (do P.space0; cvOrRef)
  P.tag "::"
  pure sg

/-- `parse_scope_or_unqualified_id_imut` (names/scopes.rs 164-213). -/
def scopeOrUid (R : Calls) : P (Ast .scope ⊕ Ast .uid) := do
  let u ← unqualifiedId R
  let e ← P.opt (scopeEnd R)
  match e with
  | some sg => pure (.inl (.scope u (Ast.ofOption sg)))
  | none => pure (.inr u)

/-- The loop of `parse_proto_id_expression_imut` (names/scopes.rs 125-142): scopes, then
the final name with the input before it, if any.  An iteration that consumes nothing
would make the loop infinite, which the model reports as `fuel`. -/
def protoLoop (p : P (Ast .scope ⊕ Ast .uid)) (s : Input) :
    Res (List (Ast .scope) × Option (Input × Ast .uid)) :=
  match p s with
  | .ok r (.inl sc) =>
    if r.length < s.length then
      match protoLoop p r with
      | .ok r' (l, o) => .ok r' (sc :: l, o)
      | .err => .err
      | .panic => .panic
      | .fuel => .fuel
    else .fuel
  | .ok r (.inr u) => .ok r ([], some (s, u))
  | .err => .ok s ([], none)
  | .panic => .panic
  | .fuel => .fuel
termination_by s.length

/-- `parse_proto_id_expression_imut` (names/scopes.rs 99-143). -/
def protoIdExpression (R : Calls) : P (Ast .path × Option (Input × Ast .uid)) := do
  let rooted ← P.opt (P.tag "::")
  let x ← (protoLoop (scopeOrUid R) : P _)
  let scopes ← internSeq 8 x.1
  pure (.path rooted.isSome scopes, x.2)

/-- `parse_id_expression_imut` (names/scopes.rs 47-56). -/
def idExpression (R : Calls) : P (Ast .idExpr) := do
  let x ← protoIdExpression R
  match x.2 with
  | some u => pure (.idExpr x.1 u.2)
  | none => P.fail

/-- `parse_nested_name_specifier_imut` (names/scopes.rs 77-86): backtracks before the
final name. -/
def nestedNameSpecifier (R : Calls) : P (Ast .path) := fun s =>
  match protoIdExpression R s with
  | .ok r (p, none) => .ok r p
  | .ok _ (p, some (back, _)) => .ok back p
  | .err => .err
  | .panic => .panic
  | .fuel => .fuel

/-! ## Operator usage (operators/usage.rs) -/

/-- `unary_symbol` (operators/usage.rs 48-50). -/
def unarySymbol : P (Ast .op) := do
  let s ← P.verify symbol fun s =>
    s = .addPlus || s = .subNeg || s = .mulDeref || s = .andRef || s = .bitNot || s = .not
  pure (.arith (.basic s false false))

/-- `cast` (operators/usage.rs 52-57). -/
def castPrefix (R : Calls) : P (Ast .op) := do
  P.charSp '('
  let t ← R.typeLike
  P.spChar ')'
  pure (.conversion t)

/-- `parse_unary_expr_prefix_imut` (operators/usage.rs 42-65). -/
def unaryPrefix (R : Calls) : P (Ast .op) :=
  P.or
    (spaced (P.or (P.or (castPrefix R) (do let o ← incDec; pure (.arith o))) unarySymbol))
    (do let o ← P.or deleteOp coAwaitOp; P.space1; pure o)

/-- `parse_new_expression_imut` (operators/usage.rs 137-163).  `new` is matched as a tag,
not as a keyword. -/
def newExpression (R : Calls) : P (Ast .newE) := do
  let rooted ← P.opt (P.tag "::")
  P.tag "new"
  P.space0
  let placement ← spaced (P.opt (functionCall R))
  let t ← spaced R.typeLike
  let ctor ← P.opt (functionCall R)
  pure (.newE rooted.isSome (Ast.ofOption (placement.map .args)) t (Ast.ofOption (ctor.map .args)))

/-! ## Values (values/mod.rs) -/

/-- `unary_op` (values/mod.rs 142-147). -/
def unaryOp (R : Calls) (ac ag : Bool) : P (Ast .header) := do
  let o ← unaryPrefix R
  P.space0
  let v ← R.valueLike ac ag
  pure (.hUnary o v)

/-- `sizeof` and `declval` (values/mod.rs 156-159). -/
def ofType (R : Calls) (w : String) (f : Ast .ty → Ast .header) : P (Ast .header) := do
  P.tag w
  let t ← R.typeLike
  P.char ')'
  pure (f t)

/-- `parse_value_header_imut` (values/mod.rs 118-172). -/
def valueHeader (R : Calls) (ac ag : Bool) : P (Ast .header) :=
  P.or (do let l ← literal; pure (.hLit l)) <|
  P.or (do let n ← newExpression R; pure (.hNew n)) <|
  P.or (ofType R "sizeof(" .hSizeOf) <|
  P.or (ofType R "declval(" .hDeclVal) <|
  P.or (do let i ← idExpression R; pure (.hId i)) <|
  P.or (unaryOp R ac ag) <|
  P.or (do let v ← parenValue R true true; pure (.hParen v)) <|
  do P.tag "..."; pure .hEllipsis

/-- `binary_op` (values/mod.rs 196-201). -/
def binaryOp (R : Calls) (ac ag : Bool) : P (Ast .after) := do
  let o ← binaryExprMiddle ac ag
  P.space0
  let v ← R.valueLike ac ag
  pure (.aBinary (.arith o) v)

/-- `ternary_op` (values/mod.rs 203-211). -/
def ternaryOp (R : Calls) (ac ag : Bool) : P (Ast .after) := do
  P.charSp '?'
  let v ← R.valueLike ac ag
  P.spCharSp ':'
  let w ← R.valueLike ac ag
  pure (.aTernary v w)

/-- `array_index` (values/mod.rs 213-219). -/
def arrayIndex (R : Calls) : P (Ast .after) := do
  P.charSp '['
  let v ← R.valueLike false true
  P.spChar ']'
  pure (.aIndex v)

/-- `member_access` (values/mod.rs 224-227). -/
def memberAccess (R : Calls) : P (Ast .after) := do
  P.charSp '.'
  let u ← unqualifiedId R
  pure (.aMember u)

/-- `parse_after_value_imut` (values/mod.rs 182-249). -/
def afterValue (R : Calls) (ac ag : Bool) : P (Ast .after) := P.byHead fun c =>
  if c = some '(' then do let a ← functionCall R; pure (.aCall a)
  else if c = some '?' then ternaryOp R ac ag
  else if c = some '.' then P.or (memberAccess R) (do P.tag "..."; pure .aEllipsis)
  else if c = some '[' then arrayIndex R
  else P.or (binaryOp R ac ag) (do let o ← incDec; pure (.aPostfix (.arith o)))

/-- `parse_value_like_imut` (values/mod.rs 70-98). -/
def stepValueLike (R : Calls) (ac ag : Bool) : P (Ast .value) := do
  let h ← valueHeader R ac ag
  let l ← P.many0 (do P.space0; afterValue R ac ag)
  let tr ← internSeq 6 l
  pure (.value h tr)

/-! ## Types (types/declarators.rs, types/specifiers/mod.rs, types/mod.rs) -/

/-- Spellings of `restrict` (types/declarators.rs 101). -/
def restrictTable : List (String × Unit) :=
  [("__restrict", ()), ("__restrict__", ()), ("restrict", ())]

/-- `cv_restrict` (types/declarators.rs 102-109). -/
def cvRestrict : P (CV × Bool) := do
  let cv1 ← spaced parseCv
  let r ← P.opt (spaced (keywords restrictTable))
  let cv2 ← parseCv
  pure (cv1.or cv2, r.isSome)

/-- `basic_pointer` (types/declarators.rs 110-117). -/
def basicPointer : P (Ast .declop) := do
  P.charSp '*'
  let x ← cvRestrict
  let p ← internSeq 8 []
  pure (.dPtr (.path false p) x.1 x.2)

/-- `member_pointer` (types/declarators.rs 121-123). -/
def memberPointer (R : Calls) : P (Ast .declop) := do
  let p ← nestedNameSpecifier R
  P.char '*'
  P.space0
  let x ← cvRestrict
  pure (.dPtr p x.1 x.2)

/-- `array` (types/declarators.rs 126-131). -/
def arrayDecl (R : Calls) : P (Ast .declop) := do
  P.charSp '['
  let v ← P.opt (R.valueLike false true)
  P.spChar ']'
  pure (.dArr (Ast.ofOption v))

/-- `parenthesized` (types/declarators.rs 137-142). -/
def parenDecl (R : Calls) : P (Ast .declop) := do
  P.charSp '('
  let d ← P.verify R.declarator fun d => !d.isNil
  P.spChar ')'
  pure (.dParen d)

/-- `vector_size` (types/declarators.rs 145-150). -/
def vectorDecl (R : Calls) : P (Ast .declop) := do
  P.tag "__vector("
  let v ← R.valueLike false true
  P.char ')'
  pure (.dVec v)

/-- `cv` (types/declarators.rs 93-95). -/
def cvDecl : P (Ast .declop) := do
  let c ← P.verify parseCv fun c => c != CV.none
  pure (.dCv c)

/-- `function` (types/declarators.rs 134). -/
def funDecl (R : Calls) : P (Ast .declop) := do
  let sg ← functionSignature R
  pure (.dFun sg)

/-- `parse_decl_operator_imut` (types/declarators.rs 83-172). -/
def declOperator (R : Calls) : P (Ast .declop) := P.byHead fun c =>
  if c = some '&' then do let r ← parseReference; pure (.dRef r)
  else if c = some '*' then basicPointer
  else if c = some '(' then P.or (P.or (funDecl R) (parenDecl R)) (memberPointer R)
  else if c = some '[' then P.or (funDecl R) (arrayDecl R)
  else if c = some '_' then P.or (vectorDecl R) (memberPointer R)
  else if c = some 'c' ∨ c = some 'v' then P.or cvDecl (memberPointer R)
  else memberPointer R

/-- `parse_declarator_imut` (types/declarators.rs 46-62). -/
def stepDeclarator (R : Calls) : P (Ast (.list .declop)) := do
  let l ← P.many0 (spaced (declOperator R))
  internSeq 8 l

/-- Keywords that may precede a type name (types/specifiers/mod.rs 58-62). -/
def elaboratedTable : List (String × Unit) :=
  [("typename", ()), ("class", ()), ("struct", ()), ("enum", ()), ("union", ())]

/-- `parse_simple_type_imut` (types/specifiers/mod.rs 47-78). -/
def simpleType (R : Calls) : P (Ast .simple) :=
  P.or
    (P.or (do let n ← parseLegacyName; pure (.stLegacy n))
      (do P.tag "auto:"; let n ← P.uint 32; pure (.stAuto n)))
    (do
      let _ ← P.opt (do keywords elaboratedTable; P.space1)
      let i ← idExpression R
      pure (.stId i))

/-- `attributes` (types/mod.rs 51-56). -/
def attributes (R : Calls) : P (Ast (.list .value)) := do
  let a ← P.opt (do P.tag "__attribute__("; let l ← functionCall R; P.char ')'; pure l)
  match a with
  | some l => pure l
  | none => internSeq 6 []

/-- `parse_type_like_imut` (types/mod.rs 39-73) with `parse_type_specifier_imut`
(types/specifiers/mod.rs 31-41). -/
def stepTypeLike (R : Calls) : P (Ast .ty) := do
  let a ← spaced (attributes R)
  let cv ← spaced parseCv
  let st ← spaced (simpleType R)
  let d ← stepDeclarator R
  pure (.ty a cv st d)

/-! ## Tying the knot -/

/-- One unfolding of the recursion. -/
def step (r : Calls) : Calls := ⟨stepTypeLike r, stepValueLike r, stepDeclarator r⟩

/-- The grammar with a limit on the number of nested calls. -/
def level : Nat → Calls
  | 0 => ⟨fun _ => .fuel, fun _ _ _ => .fuel, fun _ => .fuel⟩
  | n + 1 => step (level n)

/-- `parse_type_like`. -/
def typeLike : P (Ast .ty) := fun s => (level (s.length + 1)).typeLike s

/-- `parse_value_like`. -/
def valueLike (ac ag : Bool) : P (Ast .value) := fun s => (level (s.length + 1)).valueLike ac ag s

/-- `parse_declarator`. -/
def declarator : P (Ast (.list .declop)) := fun s => (level (s.length + 1)).declarator s

/-- `parse_entity` (lib.rs 198-208), before the `nom` result is turned into a `Result`:
`none` is the entity `<unknown>`. -/
def parseEntity : P (Option (Ast .ty)) := do
  let e ← P.or (do let t ← typeLike; pure (some t)) (do P.tag "<unknown>"; pure none)
  P.eof
  pure e

end Verif.Cpp
