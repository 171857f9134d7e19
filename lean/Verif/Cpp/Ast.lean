/-
Parsed C++ entities.

The data types of `cpparser` refer to each other through interned keys.  Interning
is modelled in `Verif.Intern`, where it is proved that a key stands for its value;
here the keys are replaced by the values they stand for, which makes the types a
family of mutually recursive trees.  They are written as one family indexed by the
sort of the entity, so that functions and proofs about all entities need a single
recursion.
-/
import Verif.Cpp.Operators

set_option autoImplicit false
set_option linter.unusedVariables false

namespace Verif.Cpp

/-- Identifier text (interned in the code, names/atoms.rs 20). -/
abbrev Ident := List Char

/-- `SourceLocation` (anonymous.rs 255-262).  The path is kept as text. -/
structure Loc where
  file : List Char
  line : Nat
  col : Nat
  deriving DecidableEq

/-- `LiteralValue` (values/literals.rs 105-115). -/
inductive LitVal where
  | i64 (i : Int)
  | u64 (u : Nat)
  | chr (c : Char)
  deriving DecidableEq

/-- `Literal` (values/literals.rs 36-43). -/
structure Literal where
  value : LitVal
  suffix : Option Ident
  deriving DecidableEq

/-- Sorts of entities. -/
inductive S where
  | ty | simple | idExpr | path | scope | uid | tparams | tparam | anon | op | sig | declop
  | value | header | after | newE | args | noexc
  | list (s : S)
  | opt (s : S)
  deriving DecidableEq

/-- C++ entities. -/
inductive Ast : S → Type where
  /-- empty interned sequence -/
  | nil {s : S} : Ast (.list s)
  /-- non-empty interned sequence -/
  | cons {s : S} (a : Ast s) (l : Ast (.list s)) : Ast (.list s)
  /-- `Option::None` -/
  | none {s : S} : Ast (.opt s)
  /-- `Option::Some` -/
  | some {s : S} (a : Ast s) : Ast (.opt s)
  /-- `TypeLike` (types/mod.rs 87-97) with its `TypeSpecifier` (types/specifiers/mod.rs 84-91) -/
  | ty (attrs : Ast (.list .value)) (cv : CV) (simple : Ast .simple) (decl : Ast (.list .declop)) :
      Ast .ty
  /-- `SimpleType::IdExpression` -/
  | stId (i : Ast .idExpr) : Ast .simple
  /-- `SimpleType::LegacyName` -/
  | stLegacy (n : LegacyName) : Ast .simple
  /-- `SimpleType::LibibertyAuto` -/
  | stAuto (n : Nat) : Ast .simple
  /-- `IdExpression` (names/scopes.rs 228-235) -/
  | idExpr (p : Ast .path) (u : Ast .uid) : Ast .idExpr
  /-- `NestedNameSpecifier` (names/scopes.rs) -/
  | path (rooted : Bool) (scopes : Ast (.list .scope)) : Ast .path
  /-- `Scope` (names/scopes.rs) -/
  | scope (u : Ast .uid) (sg : Ast (.opt .sig)) : Ast .scope
  /-- `UnqualifiedId::Named` (names/unqualified.rs 104-113) -/
  | named (destructor : Bool) (id : Ident) (tp : Ast (.opt .tparams)) : Ast .uid
  /-- `UnqualifiedId::Operator` -/
  | opId (o : Ast .op) (tp : Ast (.opt .tparams)) : Ast .uid
  /-- `UnqualifiedId::Decltype` -/
  | decltype (v : Ast .value) : Ast .uid
  /-- `UnqualifiedId::Anonymous` -/
  | anonId (a : Ast .anon) : Ast .uid
  /-- `TemplateParameters`, a list -/
  | tpList (l : Ast (.list .tparam)) : Ast .tparams
  /-- `TemplateParameters`, the invalid list `<, void>` -/
  | tpVoid : Ast .tparams
  /-- `TemplateParameter::TypeLike` -/
  | tpTy (t : Ast .ty) : Ast .tparam
  /-- `TemplateParameter::ValueLike` -/
  | tpVal (v : Ast .value) : Ast .tparam
  /-- `AnonymousEntity::ClangLambda` -/
  | clangLambda (loc : Loc) : Ast .anon
  /-- `AnonymousEntity::ClangOther` -/
  | clangOther (id : Option Ident) (loc : Option Loc) : Ast .anon
  /-- `AnonymousEntity::LibibertyLambda` -/
  | libLambda (sg : Ast .sig) (id : Nat) : Ast .anon
  /-- `AnonymousEntity::LibibertyUnnamed` -/
  | libUnnamed (id : Nat) : Ast .anon
  /-- `Operator::Basic`, `Operator::Deref`, `Operator::Spaceship` (operators/mod.rs 26-73) -/
  | arith (o : ArithOp) : Ast .op
  /-- `Operator::CallIndex` -/
  | callIndex (isIndex : Bool) : Ast .op
  /-- `Operator::CustomLiteral` -/
  | customLit (id : Ident) : Ast .op
  /-- `Operator::NewDelete` -/
  | newDelete (isDelete array : Bool) : Ast .op
  /-- `Operator::CoAwait` -/
  | coAwait : Ast .op
  /-- `Operator::Conversion` -/
  | conversion (t : Ast .ty) : Ast .op
  /-- `FunctionSignature` (functions.rs 262-282) -/
  | sig (abi : Option Ident) (params : Ast (.list .ty)) (variadic : Bool) (cv : CV) (ref : Ref)
      (noexcept : Ast .noexc) (trailing : Ast (.opt .ty)) : Ast .sig
  /-- `DeclOperator::ConstVolatile` (types/declarators.rs 186-215) -/
  | dCv (cv : CV) : Ast .declop
  /-- `DeclOperator::Pointer` -/
  | dPtr (p : Ast .path) (cv : CV) (restrict : Bool) : Ast .declop
  /-- `DeclOperator::Reference` -/
  | dRef (r : Ref) : Ast .declop
  /-- `DeclOperator::Array` -/
  | dArr (v : Ast (.opt .value)) : Ast .declop
  /-- `DeclOperator::Function` -/
  | dFun (sg : Ast .sig) : Ast .declop
  /-- `DeclOperator::Parenthesized` -/
  | dParen (d : Ast (.list .declop)) : Ast .declop
  /-- `DeclOperator::VectorSize` -/
  | dVec (v : Ast .value) : Ast .declop
  /-- `ValueLike` (values/mod.rs) -/
  | value (h : Ast .header) (trailer : Ast (.list .after)) : Ast .value
  /-- `ValueHeader::Literal` -/
  | hLit (l : Literal) : Ast .header
  /-- `ValueHeader::Parenthesized` -/
  | hParen (v : Ast .value) : Ast .header
  /-- `ValueHeader::UnaryOp` -/
  | hUnary (o : Ast .op) (v : Ast .value) : Ast .header
  /-- `ValueHeader::NewExpression` -/
  | hNew (n : Ast .newE) : Ast .header
  /-- `ValueHeader::IdExpression` -/
  | hId (i : Ast .idExpr) : Ast .header
  /-- `ValueHeader::Ellipsis` -/
  | hEllipsis : Ast .header
  /-- `ValueHeader::SizeOf` -/
  | hSizeOf (t : Ast .ty) : Ast .header
  /-- `ValueHeader::DeclVal` -/
  | hDeclVal (t : Ast .ty) : Ast .header
  /-- `AfterValue::ArrayIndex` -/
  | aIndex (v : Ast .value) : Ast .after
  /-- `AfterValue::FunctionCall` -/
  | aCall (args : Ast (.list .value)) : Ast .after
  /-- `AfterValue::BinaryOp` -/
  | aBinary (o : Ast .op) (v : Ast .value) : Ast .after
  /-- `AfterValue::TernaryOp` -/
  | aTernary (v w : Ast .value) : Ast .after
  /-- `AfterValue::MemberAccess` -/
  | aMember (u : Ast .uid) : Ast .after
  /-- `AfterValue::PostfixOp` -/
  | aPostfix (o : Ast .op) : Ast .after
  /-- `AfterValue::Ellipsis` -/
  | aEllipsis : Ast .after
  /-- Arguments of a call, as a whole -/
  | args (l : Ast (.list .value)) : Ast .args
  /-- No `noexcept` -/
  | nxNone : Ast .noexc
  /-- `noexcept`, with or without an argument -/
  | nxSome (v : Ast (.opt .value)) : Ast .noexc
  /-- `NewExpression` (operators/usage.rs 173-186) -/
  | newE (rooted : Bool) (placement : Ast (.opt .args)) (t : Ast .ty)
      (constructor : Ast (.opt .args)) : Ast .newE

namespace Ast

/-- Sequence built from a Lean list. -/
def ofList {s : S} : List (Ast s) → Ast (.list s)
  | [] => .nil
  | a :: l => .cons a (ofList l)

/-- Optional built from a Lean option. -/
def ofOption {s : S} : Option (Ast s) → Ast (.opt s)
  | Option.none => .none
  | Option.some a => .some a

/-- `is_empty()` of a sequence. -/
def isNil {s : S} : Ast (.list s) → Bool
  | .nil => true
  | .cons _ _ => false

/-- `is_none()`. -/
def isNone {s : S} : Ast (.opt s) → Bool
  | .none => true
  | .some _ => false

/-- Length of a sequence. -/
def len {s : S} : Ast (.list s) → Nat
  | .nil => 0
  | .cons _ l => l.len + 1

end Ast

end Verif.Cpp
