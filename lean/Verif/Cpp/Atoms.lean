/-
Keywords, identifiers, cv and reference qualifiers, C-style type names.

Models cpparser/src/subparsers/names/atoms.rs, types/qualifiers.rs and
types/specifiers/legacy.rs.  The `unicode-xid` feature is off (it is optional
and not enabled by the workspace).  `debug_assert!` is not modelled (release
build); non-ASCII characters are then neither identifier starts nor identifier
continuations, as in the byte-wise code.

Interning of identifiers is not modelled here (see `Verif.Intern`): a parsed
identifier is its text.
-/
import Verif.Cpp.Nom
import Mathlib.Data.List.Perm.Basic
import Mathlib.Data.List.Count

set_option autoImplicit false
set_option linter.unusedVariables false

namespace Verif.Cpp

/-! ## names/atoms.rs -/

/-- `is_id_start` (names/atoms.rs 178-182). -/
def isIdStart (c : Char) : Bool := c.isAlpha || c == '_' || c == '$'

/-- `is_id_continue` (names/atoms.rs 195-199). -/
def isIdCont (c : Char) : Bool := isIdStart c || c.isDigit

/-- `end_of_identifier` (names/atoms.rs 144-164, without `unicode-xid`). -/
def endOfIdentifier : P Unit := fun s =>
  match s with
  | c :: _ => if isIdCont c then .err else .ok s ()
  | [] => .ok s ()

/-- `identifier` (names/atoms.rs 114-141, without `unicode-xid`). -/
def identifier : P (List Char) := fun s =>
  match s with
  | c :: cs => if isIdStart c then .ok (cs.dropWhile isIdCont) (c :: cs.takeWhile isIdCont) else .err
  | [] => .err

/-- `EntityParser::keyword_parser` (names/atoms.rs 25-28). -/
def keyword (w : String) : P Unit := do
  P.tag w
  endOfIdentifier

/-- `EntityParser::keywords_parser` (names/atoms.rs 42-61): the first keyword of
the table that matches. -/
def keywords {α : Type} (table : List (String × α)) : P α := fun s =>
  match table with
  | [] => .err
  | (w, a) :: rest =>
    match keyword w s with
    | .ok r _ => .ok r a
    | _ => keywords rest s

/-! ## types/qualifiers.rs -/

/-- `ConstVolatile` (types/qualifiers.rs 40-47). -/
structure CV where
  isConst : Bool
  isVolatile : Bool
  deriving DecidableEq

/-- `ConstVolatile::default()`. -/
def CV.none : CV := ⟨false, false⟩

/-- `BitOr for ConstVolatile` (types/qualifiers.rs 63-71). -/
def CV.or (a b : CV) : CV := ⟨a.isConst || b.isConst, a.isVolatile || b.isVolatile⟩

/-- The qualifier keywords (types/qualifiers.rs 15-18). -/
def cvTable : List (String × CV) := [("const", ⟨true, false⟩), ("volatile", ⟨false, true⟩)]

/-- Keyword followed by optional spaces (`keyword.terminated(multispace0)`). -/
def spaced {α : Type} (p : P α) : P α := do
  let a ← p
  P.space0
  pure a

/-- `EntityParser::parse_cv` (types/qualifiers.rs 13-24). -/
def parseCv : P CV := do
  let l ← P.many0 (spaced (keywords cvTable))
  pure (l.foldl CV.or CV.none)

/-- `Display for ConstVolatile` (types/qualifiers.rs 73-86). -/
def CV.show (c : CV) : List Char :=
  (if c.isConst then "const".toList else []) ++
  (if c.isConst && c.isVolatile then " ".toList else []) ++
  (if c.isVolatile then "volatile".toList else [])

/-- `Reference` (types/qualifiers.rs 91-100). -/
inductive Ref where
  | none | lvalue | rvalue
  deriving DecidableEq

/-- `EntityParser::parse_reference` (types/qualifiers.rs 27-36). -/
def parseReference : P Ref :=
  P.mapOpt (P.many0 (P.char '&')) fun l =>
    match l.length with
    | 0 => some .none
    | 1 => some .lvalue
    | 2 => some .rvalue
    | _ => Option.none

/-- `Display for Reference` (types/qualifiers.rs 108-117). -/
def Ref.show : Ref → List Char
  | .none => []
  | .lvalue => "&".toList
  | .rvalue => "&&".toList

/-! ## types/specifiers/legacy.rs -/

/-- `Base` (types/specifiers/legacy.rs): base types. -/
inductive LBase where
  | float | double | char | int | int128
  deriving DecidableEq

/-- `Signedness`. -/
inductive LSign where
  | signed | unsigned
  deriving DecidableEq

/-- `Size`. -/
inductive LSize where
  | short | long | longLong
  deriving DecidableEq

/-- `LegacyNameBuilder` (types/specifiers/legacy.rs 235-247). -/
structure LBuilder where
  base : Option LBase
  sign : Option LSign
  size : Option LSize
  complex : Bool
  deriving DecidableEq

/-- `LegacyNameBuilder::default()`. -/
def LBuilder.empty : LBuilder := ⟨none, none, none, false⟩

/-- The keyword table (types/specifiers/legacy.rs 31-102). -/
def legacyTable : List (String × LBuilder) := [
  ("float", { LBuilder.empty with base := some .float }),
  ("double", { LBuilder.empty with base := some .double }),
  ("long", { LBuilder.empty with size := some .long }),
  ("unsigned", { LBuilder.empty with sign := some .unsigned }),
  ("char", { LBuilder.empty with base := some .char }),
  ("int", { LBuilder.empty with base := some .int }),
  ("__int128", { LBuilder.empty with base := some .int128 }),
  ("signed", { LBuilder.empty with sign := some .signed }),
  ("short", { LBuilder.empty with size := some .short }),
  ("_Complex", { LBuilder.empty with complex := true })]

/-- The fold step (types/specifiers/legacy.rs 109-137).  `none` is any
`ParseError`: errors only differ by their message, which `map_res` discards. -/
def legacyStep (acc : Option LBuilder) (item : LBuilder) : Option LBuilder :=
  match acc with
  | none => none
  | some acc =>
    if acc.base.isSome && item.base.isSome then none
    else
      let base := acc.base.or item.base
      if acc.sign.isSome && item.sign.isSome then none
      else
        let sign := acc.sign.or item.sign
        if acc.complex && item.complex then none
        else
          let complex := acc.complex || item.complex
          match acc.size, item.size with
          | some .long, some .long => some ⟨base, sign, some .longLong, complex⟩
          | some _, some _ => none
          | a, b => some ⟨base, sign, a.or b, complex⟩

/-- `LegacyName` (types/specifiers/legacy.rs 145-203). -/
inductive LegacyName where
  | signedShort | unsignedShort | signedInt | unsignedInt | signedLong | unsignedLong
  | signedLongLong | unsignedLongLong | signedInt128 | unsignedInt128
  | char | signedChar | unsignedChar | float | double | longDouble
  | floatComplex | doubleComplex | longDoubleComplex
  deriving DecidableEq

/-- Outcome of `LegacyNameBuilder::build`. -/
inductive Built where
  | name (n : LegacyName)
  | error
  | unreachable
  deriving DecidableEq

/-- `LegacyNameBuilder::build` (types/specifiers/legacy.rs 250-427), arms in
source order. -/
def LBuilder.build (b : LBuilder) : Built :=
  match b with
  | ⟨some .float, none, none, c⟩ => .name (if c then .floatComplex else .float)
  | ⟨some .float, _, _, _⟩ => .error
  | ⟨some .double, none, none, c⟩ => .name (if c then .doubleComplex else .double)
  | ⟨some .double, none, some .long, c⟩ => .name (if c then .longDoubleComplex else .longDouble)
  | ⟨some .double, _, _, _⟩ => .error
  | ⟨_, _, _, true⟩ => .error
  | ⟨some .char, none, none, false⟩ => .name .char
  | ⟨some .char, some .signed, none, false⟩ => .name .signedChar
  | ⟨some .char, some .unsigned, none, false⟩ => .name .unsignedChar
  | ⟨some .char, _, some _, _⟩ => .error
  | ⟨some .int128, none, none, false⟩ => .name .signedInt128
  | ⟨some .int128, some .signed, none, false⟩ => .name .signedInt128
  | ⟨some .int128, some .unsigned, none, false⟩ => .name .unsignedInt128
  | ⟨some .int128, _, some _, _⟩ => .error
  | ⟨_, some .unsigned, none, _⟩ => .name .unsignedInt
  | ⟨_, some .unsigned, some .short, _⟩ => .name .unsignedShort
  | ⟨_, some .unsigned, some .long, _⟩ => .name .unsignedLong
  | ⟨_, some .unsigned, some .longLong, _⟩ => .name .unsignedLongLong
  | ⟨none, none, none, false⟩ => .unreachable
  | ⟨_, _, some .short, _⟩ => .name .signedShort
  | ⟨_, _, none, _⟩ => .name .signedInt
  | ⟨_, _, some .long, _⟩ => .name .signedLong
  | ⟨_, _, some .longLong, _⟩ => .name .signedLongLong

/-- `legacy_name_parser` (types/specifiers/legacy.rs 26-142), called by
`EntityParser::parse_legacy_name` (17-19). -/
def parseLegacyName : P LegacyName := do
  let l ← P.many1 (spaced (keywords legacyTable))
  match l.foldl legacyStep (some LBuilder.empty) with
  | none => P.fail
  | some b =>
    match b.build with
    | .name n => pure n
    | .error => P.fail
    | .unreachable => P.crash

/-- `Display for LegacyName` (types/specifiers/legacy.rs 205-231). -/
def LegacyName.show : LegacyName → String
  | .signedShort => "short"
  | .unsignedShort => "unsigned short"
  | .signedInt => "int"
  | .unsignedInt => "unsigned int"
  | .signedLong => "long"
  | .unsignedLong => "unsigned long"
  | .signedLongLong => "long long"
  | .unsignedLongLong => "unsigned long long"
  | .signedInt128 => "__int128"
  | .unsignedInt128 => "unsigned __int128"
  | .char => "char"
  | .signedChar => "signed char"
  | .unsignedChar => "unsigned char"
  | .float => "float"
  | .double => "double"
  | .longDouble => "long double"
  | .floatComplex => "float _Complex"
  | .doubleComplex => "double _Complex"
  | .longDoubleComplex => "long double _Complex"

/-! ## Remainders -/

theorem Suff.endOfIdentifier : Suff endOfIdentifier := by
  intro s r a h
  cases s with
  | nil => cases h; exact List.suffix_refl _
  | cons c cs =>
    simp only [Cpp.endOfIdentifier] at h
    split at h
    · cases h
    · cases h; exact List.suffix_refl _

theorem Prog.identifier : Prog identifier := by
  intro s r a h
  cases s with
  | nil => cases h
  | cons c cs =>
    simp only [Cpp.identifier] at h
    split at h
    · cases h
      have h1 : cs.dropWhile isIdCont <:+ cs := List.dropWhile_suffix _
      exact ⟨h1.trans (List.suffix_cons _ _), by have := h1.length_le; simp; omega⟩
    · cases h

theorem Prog.keyword {w : String} (hw : w.toList ≠ []) : Prog (keyword w) :=
  Prog.bind_left (Prog.tag hw) fun _ => Suff.endOfIdentifier

theorem Prog.keywords {α : Type} (table : List (String × α))
    (h : ∀ e ∈ table, e.1.toList ≠ []) : Prog (keywords table) := by
  intro s
  induction table with
  | nil => intro r a h; cases h
  | cons e es ih =>
    intro r a hk
    simp only [Cpp.keywords] at hk
    split at hk
    · rename_i r1 _ heq
      cases hk
      exact Prog.keyword (h e (by simp)) _ _ _ heq
    · exact ih (fun e he => h e (by simp [he])) r a hk

theorem Prog.spaced {α : Type} {p : P α} (hp : Prog p) : Prog (spaced p) :=
  Prog.bind_left hp fun a => Suff.bind Suff.space0 fun _ => Suff.pure _

theorem legacyTable_ne : ∀ e ∈ legacyTable, e.1.toList ≠ [] := by decide +kernel
theorem cvTable_ne : ∀ e ∈ cvTable, e.1.toList ≠ [] := by decide +kernel

theorem Suff.parseCv : Suff parseCv :=
  Suff.bind (Suff.many0 (Prog.spaced (Prog.keywords _ cvTable_ne)).suff) fun _ => Suff.pure _

theorem Suff.parseReference : Suff parseReference := Suff.mapOpt (Suff.many0 (Prog.char _).suff)

theorem Prog.parseLegacyName : Prog parseLegacyName := by
  refine Prog.bind_left (Prog.many1 (Prog.spaced (Prog.keywords _ legacyTable_ne))) fun l => ?_
  cases l.foldl legacyStep (some LBuilder.empty) with
  | none => exact Suff.fail
  | some b =>
    cases hb : b.build with
    | name n => simp only [hb]; exact Suff.pure n
    | error => simp only [hb]; exact Suff.fail
    | unreachable => simp only [hb]; exact Suff.crash

end Verif.Cpp
