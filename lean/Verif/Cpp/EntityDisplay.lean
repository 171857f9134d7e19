/-
C37, C38, C53: displaying C++ entities within a recursion budget.

Models cpparser/src/display.rs, cpparser/src/interning/slice.rs and the
`CustomDisplay` implementations of cpparser/src/subparsers.
-/
import Verif.Cpp.Ast

set_option autoImplicit false
set_option linter.unusedVariables false
set_option linter.unusedSimpArgs false

namespace Verif.Cpp

/-! ## The formatter and the display state -/

/-- State threaded through a display: the text written so far, the number of
further writes that the underlying writer accepts (`none`: it never fails), the
current `max_recursion` of the shared `DisplayState` (display.rs 88-94; an integer
here, so that going below zero would be visible), and the successive values that
`max_recursion` has taken. -/
structure DSt where
  out : List Char
  quota : Option Nat
  budget : Int
  seen : List Int

/-- A display routine: whether it succeeded (`Ok(())`) and the state afterwards. -/
def W := DSt → Bool × DSt

/-- `write!(f, "…")?`. -/
def put (t : List Char) : W := fun st =>
  match st.quota with
  | none => (true, { st with out := st.out ++ t })
  | some 0 => (false, st)
  | some (n + 1) => (true, { st with out := st.out ++ t, quota := some n })

/-- Nothing to display: `Ok(())`. -/
def done : W := fun st => (true, st)

/-- `a?; b`. -/
def W.seq (a b : W) : W := fun st =>
  match a st with
  | (true, st') => b st'
  | (false, st') => (false, st')

infixr:60 " ⨾ " => W.seq

/-- Run a routine if a condition holds. -/
def W.when (c : Bool) (a : W) : W := if c then a else done

/-- `if let Ok(_guard) = state.recurse() { a } else { b }` (display.rs 116-127, and
137-142 for the guard, which is dropped on every exit of `a`, errors included). -/
def W.guarded (a b : W) : W := fun st =>
  if st.budget > 0 then
    let st1 := { st with budget := st.budget - 1, seen := st.seen ++ [st.budget - 1] }
    match a st1 with
    | (ok, st2) => (ok, { st2 with budget := st2.budget + 1, seen := st2.seen ++ [st2.budget + 1] })
  else b st

/-- `if state.can_recurse() { a } else { b }` (display.rs 111-113). -/
def W.ifCan (a b : W) : W := fun st => if st.budget > 0 then a st else b st

/-! ## Display of leaves -/

/-- String literal as a list of characters. -/
abbrev str (s : String) : List Char := s.toList

/-- The ellipsis used for elided parts. -/
def dots : List Char := ['…']

/-- `Display for SourceLocationView` (anonymous.rs 303-308). -/
def Loc.show (l : Loc) : List Char :=
  l.file ++ str ":" ++ str (toString l.line) ++ str ":" ++ str (toString l.col)

/-- `Debug for char`, used by `Display for LiteralValue` (values/literals.rs 148).
Of the characters above ASCII, Rust also escapes those that are not printable: not modelled. -/
def charDebug (c : Char) : List Char :=
  ['\''] ++ (if c = '\t' then str "\\t" else if c = '\r' then str "\\r" else if c = '\n' then str "\\n"
    else if c = '\'' then str "\\'" else if c = '\\' then str "\\\\"
    else if c = Char.ofNat 0 then str "\\0"
    else if c.toNat < 32 ∨ c.toNat = 127 then str "\\u{" ++ Nat.toDigits 16 c.toNat ++ str "}"
    else [c]) ++ ['\'']

/-- `Display for LiteralView` (values/literals.rs 87-95, 143-150). -/
def Literal.show (l : Literal) : List Char :=
  (match l.value with
    | .i64 i => str (toString i)
    | .u64 u => str (toString u)
    | .chr c => charDebug c) ++
  l.suffix.getD []

/-- Contexts in which operators are displayed (operators/mod.rs 276-291). -/
inductive Ctx where
  | declaration | prefixUsage | binaryUsage | postfixUsage
  deriving DecidableEq

/-! ## Recursion depth and display -/

/-- `DISPLAY_HEADER` of the items of a sequence. -/
def S.hdr : S → List Char
  | .ty => str "("       -- types/mod.rs 186
  | .value => str "("    -- values/mod.rs 356
  | .tparam => str "<"   -- templates.rs 255
  | _ => []              -- types/declarators.rs 357, values/mod.rs 645, names/scopes.rs 454

/-- `DISPLAY_SEPARATOR`. -/
def S.sep : S → List Char
  | .ty => str ", "
  | .value => str ", "
  | .tparam => str ", "
  | _ => []

/-- `DISPLAY_TRAILER`. -/
def S.trailer : S → List Char
  | .ty => []            -- types/mod.rs 190
  | .value => str ")"    -- values/mod.rs 360
  | .tparam => str ">"   -- templates.rs 259
  | _ => []

/-- `recursion_depth()` of every entity.

Sequences: slice.rs 108-113.  Options: display.rs 73-77.  Types: types/mod.rs
156-161, types/specifiers/mod.rs 146-148 and 215-221.  Names: names/scopes.rs
276-280, 346-348, 436-438, names/unqualified.rs 230-246.  Templates: templates.rs
169-175, 233-238.  Anonymous entities: anonymous.rs 232-240, 394-396.  Operators:
operators/mod.rs 175-186, operators/usage.rs 254-259.  Functions: functions.rs
376-381.  Declarators: types/declarators.rs 297-307.  Values: values/mod.rs
337-341, 468-479, 597-607. -/
def depth : {s : S} → Ast s → Nat
  | _, .nil => 0
  | _, .cons a l => max (depth a + 1) (depth l)
  | _, .none => 0
  | _, .some a => depth a
  | _, .ty attrs cv simple decl => max (max (depth attrs) (depth simple)) (depth decl)
  | _, .stId i => depth i
  | _, .stLegacy _ => 0
  | _, .stAuto _ => 0
  | _, .idExpr p u => max (depth p) (depth u)
  | _, .path _ scopes => depth scopes
  | _, .scope u sg => max (depth u) (depth sg)
  | _, .named _ _ tp => depth tp
  | _, .opId o tp => max (depth o) (depth tp)
  | _, .decltype v => depth v
  | _, .anonId a => depth a
  | _, .tpList l => depth l
  | _, .tpVoid => 1
  | _, .tpTy t => depth t
  | _, .tpVal v => depth v
  | _, .clangLambda _ => 0
  | _, .clangOther _ _ => 0
  | _, .libLambda sg _ => depth sg
  | _, .libUnnamed _ => 0
  | _, .arith _ => 0
  | _, .callIndex _ => 0
  | _, .customLit _ => 0
  | _, .newDelete _ _ => 0
  | _, .coAwait => 0
  | _, .conversion t => depth t
  | _, .sig _ params _ _ _ noexcept trailing =>
    max (max (depth params) (depth noexcept)) (depth trailing)
  | _, .dCv _ => 0
  | _, .dPtr p _ _ => depth p
  | _, .dRef _ => 0
  | _, .dArr v => depth v
  | _, .dFun sg => depth sg
  | _, .dParen d => depth d
  | _, .dVec v => depth v
  | _, .value h trailer => max (depth h) (depth trailer)
  | _, .hLit _ => 0
  | _, .hParen v => depth v
  | _, .hUnary o v => max (depth o) (depth v)
  | _, .hNew n => depth n
  | _, .hId i => depth i
  | _, .hEllipsis => 0
  | _, .hSizeOf t => depth t
  | _, .hDeclVal t => depth t
  | _, .aIndex v => depth v
  | _, .aCall args => depth args
  | _, .aBinary o v => max (depth o) (depth v)
  | _, .aTernary v w => max (depth v) (depth w)
  | _, .aMember u => depth u
  | _, .aPostfix o => depth o
  | _, .aEllipsis => 0
  | _, .args l => depth l
  | _, .nxNone => 0
  | _, .nxSome v => depth v
  | _, .newE _ placement t constructor => max (max (depth placement) (depth t)) (depth constructor)

/-- Display of a sequence (slice.rs 115-129), given the display `items` of its
items and separators. -/
def slice {s : S} (l : Ast (.list s)) (items : W) : W :=
  put s.hdr ⨾
  W.guarded items (W.when (!l.isNil) (put dots)) ⨾
  put s.trailer

/-- Whether a pointer shows its path (types/declarators.rs 313). -/
def Ast.shown : Ast .path → Bool
  | .path rooted scopes => rooted || !scopes.isNil

/-- `display_impl` of every entity; for a sequence, the display of its items and
separators only (slice.rs 118-124).

Line numbers: types/mod.rs 163-176; types/specifiers/mod.rs 150-156, 223-229;
names/scopes.rs 282-285, 350-360, 440-444; names/unqualified.rs 248-276;
templates.rs 177-185, 240-245; anonymous.rs 242-249, 303-308, 347-350, 398-402,
458-469, 495-498; operators/mod.rs 188-272; operators/usage.rs 261-270;
functions.rs 383-420; types/declarators.rs 309-347; values/mod.rs 343-346,
481-508, 609-635. -/
def disp (c : Ctx) : {s : S} → Ast s → W
  | _, .nil => done
  | _, .cons (s := s) a l =>
    disp .postfixUsage a ⨾ W.when (!l.isNil) (put s.sep) ⨾ disp .postfixUsage l
  | _, .none => done
  | _, .some a => disp c a
  | _, .ty attrs cv simple decl =>
    (if attrs.isNil then done else
      put (str "__attribute__(") ⨾ slice attrs (disp .postfixUsage attrs) ⨾ put (str ") ")) ⨾
    W.when (cv ≠ CV.none) (put (cv.show ++ [' '])) ⨾
    disp .postfixUsage simple ⨾
    (if decl.isNil then done else slice decl (disp .postfixUsage decl))
  | _, .stId i => disp .postfixUsage i
  | _, .stLegacy n => put (str n.show)
  | _, .stAuto n => put (str "auto:" ++ str (toString n))
  | _, .idExpr p u => disp .postfixUsage p ⨾ disp .postfixUsage u
  | _, .path rooted scopes =>
    W.ifCan (W.when rooted (put (str "::")) ⨾ slice scopes (disp .postfixUsage scopes))
      (W.when (!scopes.isNil) (put (dots ++ str "::")))
  | _, .scope u sg => disp .postfixUsage u ⨾ disp .postfixUsage sg ⨾ put (str "::")
  | _, .named d id tp => W.when d (put ['~']) ⨾ put id ⨾ disp .postfixUsage tp
  | _, .opId o tp => disp .declaration o ⨾ disp .postfixUsage tp
  | _, .decltype v => put (str "decltype(") ⨾ disp .postfixUsage v ⨾ put [')']
  | _, .anonId a => disp .postfixUsage a
  | _, .tpList l => slice l (disp .postfixUsage l)
  | _, .tpVoid => W.guarded (put (str "<, void>")) (put (['<'] ++ dots ++ ['>']))
  | _, .tpTy t => disp .postfixUsage t
  | _, .tpVal v => disp .postfixUsage v
  | _, .clangLambda loc => put (str "(lambda at " ++ loc.show ++ [')'])
  | _, .clangOther id loc =>
    put (str "(anonymous") ⨾
    (match id, loc with
      | some i, _ => put ([' '] ++ i)
      | none, some _ => put (str " entity")
      | none, none => done) ⨾
    (match loc with
      | some l => put (str " at " ++ l.show)
      | none => done) ⨾
    put [')']
  | _, .libLambda sg id => put (str "{lambda") ⨾ disp .postfixUsage sg ⨾
    put (['#'] ++ str (toString id) ++ ['}'])
  | _, .libUnnamed id => put (str "{unnamed type#" ++ str (toString id) ++ ['}'])
  | _, .arith o =>
    W.when (c = .declaration) (put (str "operator")) ⨾
    (match o with
      | .deref _ => put o.text
      | _ => W.when (c = .binaryUsage) (put [' ']) ⨾ put o.text ⨾
          W.when (c = .binaryUsage) (put [' ']))
  | _, .callIndex isIndex =>
    W.when (c = .declaration) (put (str "operator")) ⨾
    put (if isIndex then str "[]" else str "()")
  | _, .customLit id =>
    W.when (c = .declaration) (put (str "operator")) ⨾
    W.when (c = .declaration) (put (str "\"\" ")) ⨾ put id
  | _, .newDelete isDelete array =>
    W.when (c = .declaration) (put (str "operator")) ⨾
    W.when (c = .declaration) (put [' ']) ⨾
    put (if isDelete then str "delete" else str "new") ⨾
    W.when array (put (str "[]")) ⨾
    W.when (c = .prefixUsage) (put [' '])
  | _, .coAwait =>
    W.when (c = .declaration) (put (str "operator")) ⨾
    W.when (c = .declaration) (put [' ']) ⨾
    put (str "co_await") ⨾
    W.when (c = .prefixUsage) (put [' '])
  | _, .conversion t =>
    W.when (c = .declaration) (put (str "operator")) ⨾
    W.when (c = .declaration) (put [' ']) ⨾
    W.when (c = .prefixUsage) (put ['(']) ⨾
    disp .postfixUsage t ⨾
    W.when (c = .prefixUsage) (put [')'])
  | _, .sig abi params variadic cv ref noexcept trailing =>
    (match abi with
      | some a => put (str "[abi:" ++ a ++ [']'])
      | none => done) ⨾
    slice params (disp .postfixUsage params) ⨾
    W.ifCan (W.when variadic (put (str ", ..."))) done ⨾
    put [')'] ⨾
    W.when (cv ≠ CV.none) (put ([' '] ++ cv.show)) ⨾
    W.when (ref ≠ Ref.none) (put ([' '] ++ ref.show)) ⨾
    disp .postfixUsage noexcept ⨾
    (if trailing.isNone then done else put (str " -> ") ⨾ disp .postfixUsage trailing)
  | _, .dCv cv => put ([' '] ++ cv.show)
  | _, .dPtr p cv restrict =>
    (if p.shown then put [' '] ⨾ disp .postfixUsage p else done) ⨾
    put ['*'] ⨾
    W.when (cv ≠ CV.none) (put ([' '] ++ cv.show)) ⨾
    W.when restrict (put (str " restrict"))
  | _, .dRef r => put r.show
  | _, .dArr v => put ['['] ⨾ disp .postfixUsage v ⨾ put [']']
  | _, .dFun sg => disp .postfixUsage sg
  | _, .dParen d => put (str " (") ⨾ slice d (disp .postfixUsage d) ⨾ put [')']
  | _, .dVec v => put (str " __vector(") ⨾ disp .postfixUsage v ⨾ put [')']
  | _, .value h trailer => disp .postfixUsage h ⨾ slice trailer (disp .postfixUsage trailer)
  | _, .hLit l => put l.show
  | _, .hParen v => put ['('] ⨾ disp .postfixUsage v ⨾ put [')']
  | _, .hUnary o v => disp .prefixUsage o ⨾ disp .postfixUsage v
  | _, .hNew n => disp .postfixUsage n
  | _, .hId i => disp .postfixUsage i
  | _, .hEllipsis => put (str "...")
  | _, .hSizeOf t => put (str "sizeof(") ⨾ disp .postfixUsage t ⨾ put [')']
  | _, .hDeclVal t => put (str "declval(") ⨾ disp .postfixUsage t ⨾ put [')']
  | _, .aIndex v => put ['['] ⨾ disp .postfixUsage v ⨾ put [']']
  | _, .aCall args => slice args (disp .postfixUsage args)
  | _, .aBinary o v => disp .binaryUsage o ⨾ disp .postfixUsage v
  | _, .aTernary v w => put (str " ? ") ⨾ disp .postfixUsage v ⨾ put (str " : ") ⨾
    disp .postfixUsage w
  | _, .aMember u => put ['.'] ⨾ disp .postfixUsage u
  | _, .aPostfix o => disp .postfixUsage o
  | _, .aEllipsis => put (str "...")
  | _, .args l => slice l (disp .postfixUsage l)
  | _, .nxNone => done
  | _, .nxSome v => put (str " noexcept") ⨾
    (if v.isNone then done else put ['('] ⨾ disp .postfixUsage v ⨾ put [')'])
  | _, .newE rooted placement t constructor =>
    W.when rooted (put (str "::")) ⨾ put (str "new") ⨾ disp .postfixUsage placement ⨾ put [' '] ⨾
    disp .postfixUsage t ⨾ disp .postfixUsage constructor

end Verif.Cpp
