/-
C79: from the text of a file to the JSON value that C74 and C75 start from.
Models `serde_json::from_str` (1.0.133), called at clang-time-trace/src/lib.rs:226 and cmakeperf/src/commands.rs:129, from its
source as known and from RFC 8259: blanks, literals, numbers, strings with escapes, arrays, objects, the limit of nesting.

Simplifications: a text is a list of characters (`&str` is valid UTF-8 by type); the conversion of a decimal number to
`f64` is a parameter `dec` of the number's text (`none` is `NumberOutOfRange`); every error is `none`.
-/
import Verif.Trace.JsonDoc
import Mathlib.Tactic.Ring

set_option autoImplicit false
set_option linter.unusedVariables false
set_option linter.unusedSimpArgs false
set_option linter.unusedSectionVars false

namespace Verif.Trace.Ctf.Text

open Verif.Trace.Ctf

variable {F : Type}

/-! ## Model -/

/-- `parse_whitespace` -/
def isBlank (c : Char) : Bool := c == ' ' || c == '\n' || c == '\t' || c == '\r'

def skip (s : List Char) : List Char := s.dropWhile isBlank

def isDigit (c : Char) : Bool := '0' ≤ c && c ≤ '9'

/-- `parse_integer`: no digit may follow an initial `0` -/
def intPart : List Char → Option (List Char × List Char)
  | [] => none
  | c :: s =>
    if c = '0' then
      match s with
      | [] => some (['0'], [])
      | d :: s' => if isDigit d then none else some (['0'], d :: s')
    else if isDigit c then some (c :: s.takeWhile isDigit, s.dropWhile isDigit)
    else none

/-- `parse_decimal`, if there is a point -/
def fracPart : List Char → Option (List Char × List Char)
  | [] => some ([], [])
  | c :: s =>
    if c = '.' then
      match s.takeWhile isDigit with
      | [] => none
      | d :: ds => some ('.' :: d :: ds, s.dropWhile isDigit)
    else some ([], c :: s)

/-- Sign of an exponent -/
def expSign : List Char → List Char × List Char
  | [] => ([], [])
  | c :: s => if c = '+' ∨ c = '-' then ([c], s) else ([], c :: s)

/-- `parse_exponent`, if there is one -/
def expPart : List Char → Option (List Char × List Char)
  | [] => some ([], [])
  | c :: s =>
    if c = 'e' ∨ c = 'E' then
      match (expSign s).2.takeWhile isDigit with
      | [] => none
      | d :: ds => some (c :: ((expSign s).1 ++ d :: ds), (expSign s).2.dropWhile isDigit)
    else some ([], c :: s)

/-- Value of a sequence of digits -/
def natOf (ds : List Char) : Nat := ds.foldl (fun a c => 10 * a + (c.toNat - 48)) 0

/-- `parse_number`: integers that fit become `u64` or negative `i64`, everything else is converted to `f64` (also `-0`) -/
def toNum (dec : List Char → Option F) (sg i f e : List Char) : Option (Num F) :=
  if f = [] ∧ e = [] ∧ sg = [] ∧ natOf i < 2 ^ 64 then some (.nat (natOf i))
  else if f = [] ∧ e = [] ∧ sg = ['-'] ∧ 1 ≤ natOf i ∧ natOf i ≤ 2 ^ 63 then some (.neg (natOf i - 1))
  else (dec (sg ++ i ++ f ++ e)).map .float

/-- Sign of a number -/
def numSign : List Char → List Char × List Char
  | [] => ([], [])
  | c :: s => if c = '-' then (['-'], s) else ([], c :: s)

/-- `parse_any_number` -/
def number (dec : List Char → Option F) (s : List Char) : Option (Num F × List Char) :=
  match intPart (numSign s).2 with
  | none => none
  | some (i, r) =>
    match fracPart r with
    | none => none
    | some (f, r) =>
      match expPart r with
      | none => none
      | some (e, r) => (toNum dec (numSign s).1 i f e).map fun n => (n, r)

/-- `decode_hex_val` -/
def hexVal (c : Char) : Option Nat :=
  if '0' ≤ c ∧ c ≤ '9' then some (c.toNat - 48)
  else if 'a' ≤ c ∧ c ≤ 'f' then some (c.toNat - 87)
  else if 'A' ≤ c ∧ c ≤ 'F' then some (c.toNat - 55)
  else none

/-- `decode_four_hex_digits` -/
def hex4 (a b c d : Char) : Option Nat :=
  match hexVal a, hexVal b, hexVal c, hexVal d with
  | some a, some b, some c, some d => some (((a * 16 + b) * 16 + c) * 16 + d)
  | _, _, _, _ => none

/-- `parse_escape`, except for `\u` -/
def simpleEscape (c : Char) : Option Char :=
  if c = '"' then some '"'
  else if c = '\\' then some '\\'
  else if c = '/' then some '/'
  else if c = 'b' then some '\x08'
  else if c = 'f' then some '\x0c'
  else if c = 'n' then some '\n'
  else if c = 'r' then some '\r'
  else if c = 't' then some '\t'
  else none

/-- Continuation of a string after a character -/
def andThen (c : Char) (r : Option (List Char × List Char)) : Option (List Char × List Char) :=
  r.map fun x => (c :: x.1, x.2)

/-- Whether a code is one of the first, of the second halves of surrogate pairs -/
def isHigh (n : Nat) : Bool := 0xD800 ≤ n && n ≤ 0xDBFF
def isLow (n : Nat) : Bool := 0xDC00 ≤ n && n ≤ 0xDFFF

/-- `parse_str_bytes`, after the opening quote: the characters and what follows the closing quote. Control characters are
refused, `parse_unicode_escape` refuses surrogates that are not in a pair. -/
def strBody : List Char → Option (List Char × List Char)
  | [] => none
  | '"' :: r => some ([], r)
  | '\\' :: 'u' :: a :: b :: c :: d :: r =>
    match hex4 a b c d with
    | none => none
    | some n =>
      if isLow n then none
      else if isHigh n then
        match r with
        | '\\' :: 'u' :: a' :: b' :: c' :: d' :: r' =>
          match hex4 a' b' c' d' with
          | none => none
          | some m =>
            if isLow m then andThen (Char.ofNat (0x10000 + (n - 0xD800) * 0x400 + (m - 0xDC00))) (strBody r') else none
        | _ => none
      else andThen (Char.ofNat n) (strBody r)
  | '\\' :: e :: r =>
    match simpleEscape e with
    | none => none
    | some c => andThen c (strBody r)
  | c :: r => if c = '\\' ∨ c.toNat < 0x20 then none else andThen c (strBody r)

/-- `parse_ident`: the rest of a literal -/
def lit (w : List Char) (j : Json F) (s : List Char) : Option (Json F × List Char) :=
  if w.isPrefixOf s then some (j, s.drop w.length) else none

/-- `check_recursion!`: one level less may be opened -/
def deeper {α : Type} (d : Nat) (f : Nat → Option α) : Option α :=
  match d with
  | 0 => none
  | d + 1 => f d

mutual
/-- `parse_any_value`/`deserialize_any`. The first argument bounds the recursion (see `parse`), the second is the number of
levels that may still be opened (`check_recursion!`). -/
def value (dec : List Char → Option F) : Nat → Nat → List Char → Option (Json F × List Char)
  | 0, _, _ => none
  | _ + 1, _, [] => none
  | fuel + 1, d, c :: r =>
    if c = 'n' then lit "ull".toList .null r
    else if c = 't' then lit "rue".toList (.bool true) r
    else if c = 'f' then lit "alse".toList (.bool false) r
    else if c = '"' then (strBody r).map fun x => (.str (String.ofList x.1), x.2)
    else if c = '[' then
      deeper d fun d =>
        match skip r with
        | ']' :: r' => some (.arr [], r')
        | _ => (items dec fuel d r).map fun x => (.arr x.1, x.2)
    else if c = '{' then
      deeper d fun d =>
        match skip r with
        | '}' :: r' => some (.obj [], r')
        | _ => (members dec fuel d r).map fun x => (.obj x.1, x.2)
    else (number dec (c :: r)).map fun x => (.num x.1, x.2)

/-- `SeqAccess`: elements up to the closing bracket; a comma must be followed by an element -/
def items (dec : List Char → Option F) : Nat → Nat → List Char → Option (List (Json F) × List Char)
  | 0, _, _ => none
  | fuel + 1, d, s =>
    match value dec fuel d (skip s) with
    | none => none
    | some (j, r) =>
      match skip r with
      | ',' :: r' => (items dec fuel d r').map fun x => (j :: x.1, x.2)
      | ']' :: r' => some ([j], r')
      | _ => none

/-- `MapAccess`: entries up to the closing brace; a comma must be followed by an entry -/
def members (dec : List Char → Option F) : Nat → Nat → List Char → Option (Entries F × List Char)
  | 0, _, _ => none
  | fuel + 1, d, s =>
    match skip s with
    | '"' :: r =>
      match strBody r with
      | none => none
      | some (k, r) =>
        match skip r with
        | ':' :: r =>
          match value dec fuel d (skip r) with
          | none => none
          | some (j, r) =>
            match skip r with
            | ',' :: r' => (members dec fuel d r').map fun x => ((String.ofList k, j) :: x.1, x.2)
            | '}' :: r' => some ([(String.ofList k, j)], r')
            | _ => none
        | _ => none
    | _ => none
end

/-- `serde_json::from_str`: a value and nothing else. `remaining_depth` is 128 and must not become 0: 127 levels. -/
def parse (dec : List Char → Option F) (t : List Char) : Option (Json F) :=
  match value dec (2 * t.length + 1) 127 (skip t) with
  | none => none
  | some (j, r) => if skip r = [] then some j else none

/-! ## Specification (RFC 8259) -/

def Blank (w : List Char) : Prop := ∀ c ∈ w, c = ' ' ∨ c = '\n' ∨ c = '\t' ∨ c = '\r'

def Digits (ds : List Char) : Prop := ∀ c ∈ ds, '0' ≤ c ∧ c ≤ '9'

/-- Integers without superfluous zeros -/
inductive IsInt : List Char → Prop
  | zero : IsInt ['0']
  | pos (c : Char) (ds : List Char) (hc : '1' ≤ c ∧ c ≤ '9') (h : Digits ds) : IsInt (c :: ds)

inductive IsFrac : List Char → Prop
  | none : IsFrac []
  | point (d : Char) (ds : List Char) (h : Digits (d :: ds)) : IsFrac ('.' :: d :: ds)

inductive IsExp : List Char → Prop
  | none : IsExp []
  | exp (c : Char) (sg : List Char) (d : Char) (ds : List Char) (hc : c = 'e' ∨ c = 'E')
      (hs : sg = [] ∨ sg = ['+'] ∨ sg = ['-']) (h : Digits (d :: ds)) : IsExp (c :: (sg ++ d :: ds))

/-- The number that a sequence of decimal digits stands for -/
def numeral : List Char → Nat
  | [] => 0
  | c :: cs => (c.toNat - '0'.toNat) * 10 ^ cs.length + numeral cs

/-- How numbers are written. -/
inductive NumText (dec : List Char → Option F) : Num F → List Char → Prop
  | nat (i : List Char) (h : IsInt i) (hb : numeral i < 2 ^ 64) : NumText dec (.nat (numeral i)) i
  | neg (n : Nat) (i : List Char) (h : IsInt i) (hn : numeral i = n + 1) (hb : n < 2 ^ 63) : NumText dec (.neg n) ('-' :: i)
  | float (sg i f e : List Char) (x : F) (hs : sg = [] ∨ sg = ['-']) (hi : IsInt i) (hf : IsFrac f) (he : IsExp e)
      (hx : f ++ e ≠ [] ∨ (sg = [] ∧ 2 ^ 64 ≤ numeral i) ∨ (sg = ['-'] ∧ (numeral i = 0 ∨ 2 ^ 63 < numeral i)))
      (hd : dec (sg ++ i ++ f ++ e) = some x) : NumText dec (.float x) (sg ++ i ++ f ++ e)

/-- Value of a hexadecimal digit -/
inductive Hex : Char → Nat → Prop
  | digit (c : Char) (h : '0' ≤ c ∧ c ≤ '9') : Hex c (c.toNat - '0'.toNat)
  | lower (c : Char) (h : 'a' ≤ c ∧ c ≤ 'f') : Hex c (c.toNat - 'a'.toNat + 10)
  | upper (c : Char) (h : 'A' ≤ c ∧ c ≤ 'F') : Hex c (c.toNat - 'A'.toNat + 10)

/-- Four hexadecimal digits -/
inductive Hex4 : List Char → Nat → Prop
  | mk (a b c d : Char) (x y z t : Nat) (ha : Hex a x) (hb : Hex b y) (hc : Hex c z) (hd : Hex d t) :
    Hex4 [a, b, c, d] (16 ^ 3 * x + 16 ^ 2 * y + 16 * z + t)

/-- Escapes of one character -/
def escapes : List (Char × Char) :=
  [('"', '"'), ('\\', '\\'), ('/', '/'), ('b', '\x08'), ('f', '\x0c'), ('n', '\n'), ('r', '\r'), ('t', '\t')]

/-- How the characters of a string are written: as themselves, by an escape, by their code, or by a surrogate pair. -/
inductive Body : List Char → List Char → Prop
  | nil : Body [] []
  | plain (c : Char) (s b : List Char) (hq : c ≠ '"') (hb : c ≠ '\\') (hc : 0x20 ≤ c.toNat) (h : Body s b) :
    Body (c :: s) (c :: b)
  | escape (e c : Char) (s b : List Char) (he : (e, c) ∈ escapes) (h : Body s b) : Body (c :: s) ('\\' :: e :: b)
  | code (u : List Char) (c : Char) (s b : List Char) (hu : Hex4 u c.toNat) (h : Body s b) :
    Body (c :: s) ('\\' :: 'u' :: (u ++ b))
  | pair (u v : List Char) (c : Char) (hi lo : Nat) (s b : List Char) (hu : Hex4 u (0xD800 + hi)) (hv : Hex4 v (0xDC00 + lo))
      (hhi : hi < 0x400) (hlo : lo < 0x400) (hc : c.toNat = 0x10000 + hi * 0x400 + lo) (h : Body s b) :
    Body (c :: s) ('\\' :: 'u' :: (u ++ '\\' :: 'u' :: (v ++ b)))

/-- How a string is written. -/
inductive StrText : String → List Char → Prop
  | mk (s b : List Char) (h : Body s b) : StrText (String.ofList s) ('"' :: (b ++ ['"']))

mutual
/-- How a value is written, with at most `d` levels of arrays and objects. -/
inductive Val (dec : List Char → Option F) : Nat → Json F → List Char → Prop
  | null (d : Nat) : Val dec d .null "null".toList
  | true (d : Nat) : Val dec d (.bool true) "true".toList
  | false (d : Nat) : Val dec d (.bool false) "false".toList
  | num (d : Nat) (n : Num F) (u : List Char) (h : NumText dec n u) : Val dec d (.num n) u
  | str (d : Nat) (s : String) (u : List Char) (h : StrText s u) : Val dec d (.str s) u
  | arr0 (d : Nat) (w : List Char) (hw : Blank w) : Val dec (d + 1) (.arr []) ('[' :: (w ++ [']']))
  | arr (d : Nat) (l : List (Json F)) (u : List Char) (h : Items dec d l u) : Val dec (d + 1) (.arr l) ('[' :: (u ++ [']']))
  | obj0 (d : Nat) (w : List Char) (hw : Blank w) : Val dec (d + 1) (.obj []) ('{' :: (w ++ ['}']))
  | obj (d : Nat) (l : Entries F) (u : List Char) (h : Members dec d l u) :
    Val dec (d + 1) (.obj l) ('{' :: (u ++ ['}']))

/-- Elements, separated by commas, with blanks around them -/
inductive Items (dec : List Char → Option F) : Nat → List (Json F) → List Char → Prop
  | one (d : Nat) (j : Json F) (w u w' : List Char) (hw : Blank w) (h : Val dec d j u) (hw' : Blank w') :
    Items dec d [j] (w ++ u ++ w')
  | cons (d : Nat) (j : Json F) (l : List (Json F)) (w u w' v : List Char) (hw : Blank w) (h : Val dec d j u) (hw' : Blank w')
      (hl : Items dec d l v) : Items dec d (j :: l) (w ++ u ++ w' ++ ',' :: v)

/-- Entries: key, colon and value, likewise -/
inductive Members (dec : List Char → Option F) : Nat → Entries F → List Char → Prop
  | one (d : Nat) (k : String) (j : Json F) (w ku w1 w2 u w' : List Char) (hw : Blank w) (hk : StrText k ku) (hw1 : Blank w1)
      (hw2 : Blank w2) (h : Val dec d j u) (hw' : Blank w') : Members dec d [(k, j)] (w ++ ku ++ w1 ++ ':' :: (w2 ++ u ++ w'))
  | cons (d : Nat) (k : String) (j : Json F) (l : Entries F) (w ku w1 w2 u w' v : List Char) (hw : Blank w) (hk : StrText k ku)
      (hw1 : Blank w1) (hw2 : Blank w2) (h : Val dec d j u) (hw' : Blank w') (hl : Members dec d l v) :
    Members dec d ((k, j) :: l) (w ++ ku ++ w1 ++ ':' :: (w2 ++ u ++ w' ++ ',' :: v))
end

/-- How a document is written: a value with blanks around it, at most 127 levels deep. -/
def IsText (dec : List Char → Option F) (j : Json F) (t : List Char) : Prop :=
  ∃ w u w', Blank w ∧ Val dec 127 j u ∧ Blank w' ∧ t = w ++ u ++ w'

/-! ## Proofs: blanks and digits -/

theorem isBlank_iff (c : Char) : isBlank c = true ↔ (c = ' ' ∨ c = '\n' ∨ c = '\t' ∨ c = '\r') := by
  simp [isBlank, or_assoc]

theorem isDigit_iff (c : Char) : isDigit c = true ↔ ('0' ≤ c ∧ c ≤ '9') := by simp [isDigit]

theorem span_split (p : Char → Bool) (s : List Char) :
    s = s.takeWhile p ++ s.dropWhile p ∧ (∀ c ∈ s.takeWhile p, p c = true) := by
  refine ⟨List.takeWhile_append_dropWhile.symm, ?_⟩
  intro c hc; exact List.all_eq_true.1 List.all_takeWhile c hc

/-- The rest does not begin with a character of the class -/
def NotNext (p : Char → Bool) (r : List Char) : Prop := ∀ c s, r = c :: s → p c = false

theorem dropWhile_notNext (p : Char → Bool) (s : List Char) : NotNext p (s.dropWhile p) := by
  intro c r h
  have := List.head?_dropWhile_not p s
  rw [h] at this; simpa using this

theorem takeWhile_eq (p : Char → Bool) (a r : List Char) (ha : ∀ c ∈ a, p c = true) (hr : NotNext p r) :
    (a ++ r).takeWhile p = a ∧ (a ++ r).dropWhile p = r := by
  induction a with
  | nil =>
    cases r with
    | nil => simp
    | cons c s => simp [hr c s rfl]
  | cons c a ih =>
    have hc := ha c (by simp)
    have := ih (fun x hx => ha x (by simp [hx]))
    simp [hc, this]

theorem skip_blank (w r : List Char) (h : Blank w) : skip (w ++ r) = skip r := by
  induction w with
  | nil => rfl
  | cons c w ih =>
    have hc : isBlank c = true := (isBlank_iff c).2 (h c (by simp))
    have := ih (fun x hx => h x (by simp [hx]))
    simpa [skip, hc] using this

theorem skip_split (s : List Char) : ∃ w, Blank w ∧ s = w ++ skip s := by
  refine ⟨s.takeWhile isBlank, ?_, (span_split isBlank s).1⟩
  intro c hc; exact (isBlank_iff c).1 ((span_split isBlank s).2 c hc)

theorem skip_cons {c : Char} (r : List Char) (h : isBlank c = false) : skip (c :: r) = c :: r := by
  simp [skip, h]

theorem skip_nil_iff (r : List Char) : skip r = [] ↔ Blank r := by
  constructor
  · intro h
    obtain ⟨w, hw, e⟩ := skip_split r
    rw [h] at e; simp at e; rw [e]; exact hw
  · intro h
    have := skip_blank r [] h
    simpa [skip] using this

theorem blank_append {a b : List Char} : Blank (a ++ b) ↔ Blank a ∧ Blank b := by
  simp [Blank, or_imp, forall_and]

/-! ## Proofs: numbers -/

theorem natOf_acc (ds : List Char) (a : Nat) :
    ds.foldl (fun a c => 10 * a + (c.toNat - 48)) a = a * 10 ^ ds.length + numeral ds := by
  induction ds generalizing a with
  | nil => simp [numeral]
  | cons c ds ih =>
    simp only [List.foldl_cons, ih, numeral, List.length_cons]
    have : '0'.toNat = 48 := rfl
    rw [this, pow_succ]; ring

theorem natOf_eq (ds : List Char) : natOf ds = numeral ds := by
  simp [natOf, natOf_acc]

/-- What follows a number must not continue it. -/
def numChar (c : Char) : Bool := isDigit c || c == '.' || c == 'e' || c == 'E'

def NumStop (r : List Char) : Prop := NotNext numChar r

theorem digits_all {ds : List Char} : Digits ds ↔ ∀ c ∈ ds, isDigit c = true := by
  simp [Digits, isDigit_iff]

theorem pos_digit {c : Char} (h : '1' ≤ c ∧ c ≤ '9') : c ≠ '0' ∧ isDigit c = true := by
  constructor
  · rintro rfl; exact absurd h.1 (by decide)
  · rw [isDigit_iff]; refine ⟨?_, h.2⟩
    have h1 : '1'.val.toNat ≤ c.val.toNat := h.1
    have e1 : '0'.val.toNat = 48 := rfl
    have e2 : '1'.val.toNat = 49 := rfl
    show '0'.val.toNat ≤ c.val.toNat
    omega

theorem digit_pos {c : Char} (h : isDigit c = true) (hc : c ≠ '0') : '1' ≤ c ∧ c ≤ '9' := by
  rw [isDigit_iff] at h
  refine ⟨?_, h.2⟩
  obtain ⟨h1, h2⟩ := h
  have e : '0'.val.toNat ≤ c.val.toNat := h1
  have : c.val.toNat ≠ '0'.val.toNat := fun e => hc (Char.ext (UInt32.toNat_inj.1 e))
  show '1'.val.toNat ≤ c.val.toNat
  have e1 : '0'.val.toNat = 48 := rfl
  have e2 : '1'.val.toNat = 49 := rfl
  omega

theorem int_complete {i : List Char} (h : IsInt i) (r : List Char) (hr : NotNext isDigit r) :
    intPart (i ++ r) = some (i, r) := by
  cases h with
  | zero =>
    cases r with
    | nil => rfl
    | cons c s => simp [intPart, hr c s rfl]
  | pos c ds hc h =>
    obtain ⟨h0, h1⟩ := pos_digit hc
    have := takeWhile_eq isDigit ds r (digits_all.1 h) hr
    simp [intPart, h0, h1, this]

theorem int_sound {s i r : List Char} (h : intPart s = some (i, r)) : s = i ++ r ∧ IsInt i := by
  cases s with
  | nil => simp [intPart] at h
  | cons c s =>
    simp only [intPart] at h
    split at h
    · next e =>
      subst e
      cases s with
      | nil => simp at h; obtain ⟨rfl, rfl⟩ := h; exact ⟨rfl, .zero⟩
      | cons d s =>
        dsimp only at h
        split at h
        · simp at h
        · simp at h; obtain ⟨rfl, rfl⟩ := h; exact ⟨rfl, .zero⟩
    · next e =>
      split at h
      · next e2 =>
        simp at h; obtain ⟨rfl, rfl⟩ := h
        obtain ⟨h1, h2⟩ := span_split isDigit s
        exact ⟨by simp, .pos _ _ (digit_pos e2 e) (digits_all.2 h2)⟩
      · simp at h

theorem frac_complete {f : List Char} (h : IsFrac f) (r : List Char) (hr : NotNext isDigit r) (hp : f = [] → NotNext (· == '.') r) :
    fracPart (f ++ r) = some (f, r) := by
  cases h with
  | none =>
    cases r with
    | nil => rfl
    | cons c s =>
      have := hp rfl c s rfl
      simp at this
      simp [fracPart, this]
  | point d ds h =>
    have := takeWhile_eq isDigit (d :: ds) r (digits_all.1 h) hr
    simp only [List.cons_append] at this
    simp [fracPart, this.1, this.2]

theorem frac_sound {s f r : List Char} (h : fracPart s = some (f, r)) : s = f ++ r ∧ IsFrac f := by
  cases s with
  | nil => simp [fracPart] at h; obtain ⟨rfl, rfl⟩ := h; exact ⟨rfl, .none⟩
  | cons c s =>
    simp only [fracPart] at h
    split at h
    · next e =>
      subst e
      split at h
      · simp at h
      · next d ds e =>
        simp at h; obtain ⟨rfl, rfl⟩ := h
        obtain ⟨h1, h2⟩ := span_split isDigit s
        rw [e] at h1 h2
        exact ⟨by simpa using h1, .point _ _ (digits_all.2 h2)⟩
    · simp at h; obtain ⟨rfl, rfl⟩ := h; exact ⟨rfl, .none⟩

theorem expSign_split (s : List Char) :
    s = (expSign s).1 ++ (expSign s).2 ∧ ((expSign s).1 = [] ∨ (expSign s).1 = ['+'] ∨ (expSign s).1 = ['-']) := by
  cases s with
  | nil => simp [expSign]
  | cons c s =>
    by_cases h : c = '+' ∨ c = '-'
    · simp only [expSign, if_pos h]
      rcases h with rfl | rfl <;> simp
    · simp [expSign, if_neg h]

theorem expSign_complete {sg : List Char} (hs : sg = [] ∨ sg = ['+'] ∨ sg = ['-']) (d : Char) (hd : isDigit d = true) (r : List Char) :
    expSign (sg ++ d :: r) = (sg, d :: r) := by
  rcases hs with rfl | rfl | rfl
  · have h1 : ¬ (d = '+' ∨ d = '-') := by
      rintro (rfl | rfl) <;> exact absurd hd (by decide)
    simp only [List.nil_append, expSign, if_neg h1]
  · rfl
  · rfl

theorem exp_complete {e : List Char} (h : IsExp e) (r : List Char) (hr : NotNext isDigit r)
    (hp : e = [] → NotNext (fun c => c == 'e' || c == 'E') r) : expPart (e ++ r) = some (e, r) := by
  cases h with
  | none =>
    cases r with
    | nil => rfl
    | cons c s =>
      have := hp rfl c s rfl
      simp at this
      simp [expPart, this]
  | exp c sg d ds hc hs h =>
    have hd : isDigit d = true := digits_all.1 h d (by simp)
    have := takeWhile_eq isDigit (d :: ds) r (digits_all.1 h) hr
    simp only [List.cons_append] at this
    have hx := expSign_complete hs d hd (ds ++ r)
    simp only [List.cons_append, expPart, if_pos hc, List.append_assoc, hx, this.1, this.2]

theorem exp_sound {s e r : List Char} (h : expPart s = some (e, r)) : s = e ++ r ∧ IsExp e := by
  cases s with
  | nil => simp [expPart] at h; obtain ⟨rfl, rfl⟩ := h; exact ⟨rfl, .none⟩
  | cons c s =>
    simp only [expPart] at h
    split at h
    · next hc =>
      split at h
      · simp at h
      · next d ds e =>
        simp only [Option.some.injEq, Prod.mk.injEq] at h; obtain ⟨rfl, rfl⟩ := h
        obtain ⟨h1, h2⟩ := span_split isDigit (expSign s).2
        obtain ⟨h3, h4⟩ := expSign_split s
        rw [e] at h1 h2
        refine ⟨?_, .exp _ _ _ _ hc h4 (digits_all.2 h2)⟩
        conv_lhs => rw [h3, h1]
        simp
    · simp at h; obtain ⟨rfl, rfl⟩ := h; exact ⟨rfl, .none⟩

theorem numSign_complete {sg : List Char} (hs : sg = [] ∨ sg = ['-']) {i : List Char} (hi : IsInt i) (r : List Char) :
    numSign (sg ++ (i ++ r)) = (sg, i ++ r) := by
  rcases hs with rfl | rfl
  · cases hi with
    | zero => rfl
    | pos c ds hc h =>
      have : c ≠ '-' := by rintro rfl; exact absurd hc (by decide)
      simp [numSign, this]
  · rfl

theorem numSign_split (s : List Char) : s = (numSign s).1 ++ (numSign s).2 ∧ ((numSign s).1 = [] ∨ (numSign s).1 = ['-']) := by
  cases s with
  | nil => simp [numSign]
  | cons c s =>
    by_cases h : c = '-'
    · subst h; simp [numSign]
    · simp [numSign, if_neg h]

theorem stop_digit {r : List Char} (h : NumStop r) : NotNext isDigit r := by
  intro c s e
  have := h c s e
  simp [numChar] at this
  simp [this]

theorem frac_head {f : List Char} (h : IsFrac f) (r : List Char) (hr : NotNext isDigit r) : NotNext isDigit (f ++ r) := by
  cases h with
  | none => exact hr
  | point d ds h =>
    intro c s e
    simp at e
    rw [← e.1]; decide

theorem exp_head {e : List Char} (h : IsExp e) (r : List Char) (hr : NumStop r) :
    NotNext isDigit (e ++ r) ∧ NotNext (· == '.') (e ++ r) := by
  cases h with
  | none =>
    refine ⟨stop_digit hr, ?_⟩
    intro c s e
    have := hr c s e
    simp [numChar] at this
    simp [this]
  | exp c sg d ds hc hs h =>
    constructor <;>
    · intro c' s e
      simp at e
      rw [← e.1]
      rcases hc with rfl | rfl <;> decide

theorem number_parts (dec : List Char → Option F) {sg i f e : List Char} (hs : sg = [] ∨ sg = ['-']) (hi : IsInt i) (hf : IsFrac f)
    (he : IsExp e) (r : List Char) (hr : NumStop r) :
    number dec (sg ++ i ++ f ++ e ++ r) = (toNum dec sg i f e).map fun n => (n, r) := by
  have h1 := exp_head he r hr
  have h2 := frac_head hf (e ++ r) h1.1
  have e1 : sg ++ i ++ f ++ e ++ r = sg ++ (i ++ (f ++ (e ++ r))) := by simp
  rw [e1]
  simp only [number, numSign_complete hs hi, int_complete hi _ h2, frac_complete hf _ h1.1 (fun _ => h1.2)]
  rw [exp_complete he r (stop_digit hr) ?_]
  intro _ c s e
  have := hr c s e
  simp [numChar] at this
  simp [this]

theorem number_complete (dec : List Char → Option F) {n : Num F} {u : List Char} (h : NumText dec n u) (r : List Char) (hr : NumStop r) :
    number dec (u ++ r) = some (n, r) := by
  cases h with
  | nat i h hb =>
    have := number_parts dec (.inl rfl) h .none .none r hr
    simp only [List.nil_append, List.append_nil] at this
    rw [this]
    rw [toNum, if_pos ⟨rfl, rfl, rfl, by rw [natOf_eq]; exact hb⟩, natOf_eq]; rfl
  | neg n i h hn hb =>
    have := number_parts dec (sg := ['-']) (.inr rfl) h .none .none r hr
    simp only [List.append_nil, List.cons_append, List.nil_append] at this
    rw [List.cons_append, this]
    rw [toNum, if_neg (by simp), if_pos ⟨rfl, rfl, rfl, by rw [natOf_eq]; omega, by rw [natOf_eq]; omega⟩, natOf_eq, hn]; rfl
  | float sg i f e x hs hi hf he hx hd =>
    rw [number_parts dec hs hi hf he r hr]
    have h1 : ¬ (f = [] ∧ e = [] ∧ sg = [] ∧ natOf i < 2 ^ 64) := by
      rintro ⟨rfl, rfl, rfl, hb⟩
      rw [natOf_eq] at hb
      rcases hx with hx | hx | hx
      · simp at hx
      · omega
      · simp at hx
    have h2 : ¬ (f = [] ∧ e = [] ∧ sg = ['-'] ∧ 1 ≤ natOf i ∧ natOf i ≤ 2 ^ 63) := by
      rintro ⟨rfl, rfl, rfl, hb, hc⟩
      rw [natOf_eq] at hb hc
      rcases hx with hx | hx | hx
      · simp at hx
      · simp at hx
      · omega
    rw [toNum, if_neg h1, if_neg h2, hd]; rfl

theorem number_sound (dec : List Char → Option F) {s r : List Char} {n : Num F} (h : number dec s = some (n, r)) :
    ∃ u, s = u ++ r ∧ NumText dec n u := by
  unfold number at h
  split at h
  · simp at h
  · next i r1 e1 =>
    split at h
    · simp at h
    · next f r2 e2 =>
      split at h
      · simp at h
      · next e r3 e3 =>
        obtain ⟨h0, hs⟩ := numSign_split s
        obtain ⟨h1, hi⟩ := int_sound e1
        obtain ⟨h2, hf⟩ := frac_sound e2
        obtain ⟨h3, he⟩ := exp_sound e3
        generalize numSign s = q at *
        obtain ⟨sg, r0⟩ := q
        simp only at *
        rw [Option.map_eq_some_iff] at h
        obtain ⟨m, hm, hx⟩ := h
        simp only [Prod.mk.injEq] at hx
        obtain ⟨rfl, rfl⟩ := hx
        refine ⟨sg ++ i ++ f ++ e, by rw [h0, h1, h2, h3]; simp, ?_⟩
        unfold toNum at hm
        split at hm
        · next c =>
          obtain ⟨rfl, rfl, rfl, hb⟩ := c
          simp only [Option.some.injEq] at hm
          rw [← hm, natOf_eq]; rw [natOf_eq] at hb
          simpa using NumText.nat i hi hb
        · next c =>
          split at hm
          · next c2 =>
            obtain ⟨rfl, rfl, rfl, hb, hc⟩ := c2
            simp only [Option.some.injEq] at hm
            rw [← hm, natOf_eq]; rw [natOf_eq] at hb hc
            have := NumText.neg (dec := dec) (numeral i - 1) i hi (by omega) (by omega)
            simpa using this
          · next c2 =>
            rw [Option.map_eq_some_iff] at hm
            obtain ⟨x, hx, rfl⟩ := hm
            refine .float sg i f e x hs hi hf he ?_ hx
            by_cases hfe : f ++ e = []
            · right
              simp at hfe
              rw [natOf_eq] at c c2
              rcases hs with rfl | rfl
              · left; refine ⟨rfl, ?_⟩
                by_contra hlt
                exact c ⟨hfe.1, hfe.2, rfl, by omega⟩
              · right; refine ⟨rfl, ?_⟩
                by_contra hlt
                exact c2 ⟨hfe.1, hfe.2, rfl, by omega, by omega⟩
            · exact .inl hfe

/-! ## Proofs: strings -/

theorem char_le (a b : Char) : a ≤ b ↔ a.toNat ≤ b.toNat := Iff.rfl

theorem hexVal_iff (c : Char) (n : Nat) : hexVal c = some n ↔ Hex c n := by
  constructor
  · intro h
    unfold hexVal at h
    split at h
    · next hc => simp only [Option.some.injEq] at h; rw [← h]; exact .digit c hc
    · split at h
      · next hc =>
        simp only [Option.some.injEq] at h
        have : n = c.toNat - 'a'.toNat + 10 := by
          simp only [char_le, Char.reduceToNat] at hc ⊢; omega
        rw [this]; exact .lower c hc
      · split at h
        · next hc =>
          simp only [Option.some.injEq] at h
          have : n = c.toNat - 'A'.toNat + 10 := by
            simp only [char_le, Char.reduceToNat] at hc ⊢; omega
          rw [this]; exact .upper c hc
        · simp at h
  · intro h
    cases h with
    | digit h => simp [hexVal, h]
    | lower h =>
      have h1 : ¬ ('0' ≤ c ∧ c ≤ '9') := by simp only [char_le, Char.reduceToNat] at h ⊢; omega
      rw [hexVal, if_neg h1, if_pos h]
      simp only [char_le, Char.reduceToNat] at h ⊢
      congr 1; omega
    | upper h =>
      have h1 : ¬ ('0' ≤ c ∧ c ≤ '9') := by simp only [char_le, Char.reduceToNat] at h ⊢; omega
      have h2 : ¬ ('a' ≤ c ∧ c ≤ 'f') := by simp only [char_le, Char.reduceToNat] at h ⊢; omega
      rw [hexVal, if_neg h1, if_neg h2, if_pos h]
      simp only [char_le, Char.reduceToNat] at h ⊢
      congr 1; omega

theorem hex_lt {c : Char} {n : Nat} (h : Hex c n) : n < 16 := by
  cases h with
  | digit h => simp only [char_le, Char.reduceToNat] at h ⊢; omega
  | lower h => simp only [char_le, Char.reduceToNat] at h ⊢; omega
  | upper h => simp only [char_le, Char.reduceToNat] at h ⊢; omega

theorem hex4_iff (a b c d : Char) (n : Nat) : hex4 a b c d = some n ↔ Hex4 [a, b, c, d] n := by
  constructor
  · intro h
    unfold hex4 at h
    split at h
    · next x y z t hx hy hz ht =>
      simp only [Option.some.injEq] at h
      have : n = 16 ^ 3 * x + 16 ^ 2 * y + 16 * z + t := by omega
      rw [this]
      exact .mk a b c d x y z t ((hexVal_iff _ _).1 hx) ((hexVal_iff _ _).1 hy) ((hexVal_iff _ _).1 hz) ((hexVal_iff _ _).1 ht)
    · simp at h
  · intro h
    cases h with
    | mk _ _ _ _ x y z t ha hb hc hd =>
      rw [← hexVal_iff] at ha hb hc hd
      simp only [hex4, ha, hb, hc, hd]
      congr 1; omega

theorem hex4_shape {u : List Char} {n : Nat} (h : Hex4 u n) : ∃ a b c d, u = [a, b, c, d] ∧ hex4 a b c d = some n ∧ n < 65536 := by
  cases h with
  | mk a b c d x y z t ha hb hc hd =>
    refine ⟨a, b, c, d, rfl, (hex4_iff _ _ _ _ _).2 (.mk a b c d x y z t ha hb hc hd), ?_⟩
    have := hex_lt ha; have := hex_lt hb; have := hex_lt hc; have := hex_lt hd
    omega

theorem escape_iff (e c : Char) : simpleEscape e = some c ↔ (e, c) ∈ escapes := by
  constructor
  · intro h
    unfold simpleEscape at h
    repeat' split at h
    all_goals first
      | (simp at h; done)
      | (simp only [Option.some.injEq] at h; subst h; subst_vars; simp [escapes])
  · intro h
    simp only [escapes, List.mem_cons, Prod.mk.injEq, List.mem_nil_iff, or_false] at h
    rcases h with ⟨rfl, rfl⟩ | ⟨rfl, rfl⟩ | ⟨rfl, rfl⟩ | ⟨rfl, rfl⟩ | ⟨rfl, rfl⟩ | ⟨rfl, rfl⟩ | ⟨rfl, rfl⟩ | ⟨rfl, rfl⟩ <;> rfl

theorem char_not_surrogate (c : Char) : isLow c.toNat = false ∧ isHigh c.toNat = false := by
  have h := c.valid
  have e : c.toNat = c.val.toNat := rfl
  simp only [isLow, isHigh, e]
  have h' : c.val.toNat < 0xd800 ∨ 0xdfff < c.val.toNat ∧ c.val.toNat < 0x110000 := h
  constructor
  · simp; omega
  · simp; omega

theorem ofNat_toNat {n : Nat} (h : n < 0xd800 ∨ 0xdfff < n ∧ n < 0x110000) : (Char.ofNat n).toNat = n := by
  rw [Char.ofNat, dif_pos (show n.isValidChar from h)]
  simp [Char.ofNatAux, Char.toNat]

theorem strBody_plain {c : Char} (r : List Char) (hq : c ≠ '"') (hb : c ≠ '\\') (hc : 0x20 ≤ c.toNat) :
    strBody (c :: r) = andThen c (strBody r) := by
  rw [strBody.eq_def]
  split
  · simp at *
  · simp_all
  · simp_all
  · simp_all
  · next c' r' _ _ _ e =>
    simp only [List.cons.injEq] at e
    obtain ⟨rfl, rfl⟩ := e
    rw [if_neg]
    rintro (h | h)
    · exact hb h
    · omega

theorem strBody_escape {e c : Char} (r : List Char) (h : simpleEscape e = some c) :
    strBody ('\\' :: e :: r) = andThen c (strBody r) := by
  have he : e ≠ 'u' := by rintro rfl; simp [simpleEscape] at h
  rw [strBody.eq_def]
  split
  · simp at *
  · simp_all
  · simp_all
  · next e' r' _ x =>
    simp only [List.cons.injEq, true_and] at x
    obtain ⟨rfl, rfl⟩ := x
    rw [h]
  · next hx e =>
    simp only [List.cons.injEq] at e
    exact absurd e.2.symm (hx _ _ e.1.symm)

theorem strBody_code {a b c d x : Char} (r : List Char) (h : hex4 a b c d = some x.toNat) :
    strBody ('\\' :: 'u' :: a :: b :: c :: d :: r) = andThen x (strBody r) := by
  obtain ⟨h1, h2⟩ := char_not_surrogate x
  rw [strBody]
  simp only [h, h1, h2, Bool.false_eq_true, if_false]
  rw [Char.ofNat_toNat]

theorem strBody_pair {a b c d a' b' c' d' : Char} (r : List Char) (n m : Nat) (h : hex4 a b c d = some n) (h' : hex4 a' b' c' d' = some m)
    (hn : isHigh n = true) (hm : isLow m = true) :
    strBody ('\\' :: 'u' :: a :: b :: c :: d :: '\\' :: 'u' :: a' :: b' :: c' :: d' :: r) =
      andThen (Char.ofNat (0x10000 + (n - 0xD800) * 0x400 + (m - 0xDC00))) (strBody r) := by
  have hl : isLow n = false := by
    simp [isHigh, isLow] at hn ⊢; omega
  rw [strBody]
  simp only [h, h', hn, hm, hl, Bool.false_eq_true, if_false, if_true]

theorem body_complete {s b : List Char} (h : Body s b) (r : List Char) : strBody (b ++ '"' :: r) = some (s, r) := by
  induction h with
  | nil => simp [strBody]
  | plain c s b hq hb hc _ ih => rw [List.cons_append, strBody_plain _ hq hb hc, ih]; rfl
  | escape e c s b he _ ih =>
    rw [List.cons_append, List.cons_append, strBody_escape _ ((escape_iff _ _).2 he), ih]; rfl
  | code u c s b hu _ ih =>
    obtain ⟨x, y, z, t, rfl, hx, _⟩ := hex4_shape hu
    simp only [List.cons_append, List.nil_append]
    rw [strBody_code _ hx, ih]; rfl
  | pair u v c hi lo s b hu hv hhi hlo hc _ ih =>
    obtain ⟨x, y, z, t, rfl, hx, _⟩ := hex4_shape hu
    obtain ⟨x', y', z', t', rfl, hx', _⟩ := hex4_shape hv
    simp only [List.cons_append, List.nil_append]
    rw [strBody_pair _ _ _ hx hx' (by simp [isHigh]; omega) (by simp [isLow]; omega), ih]
    have e : 0x10000 + (0xD800 + hi - 0xD800) * 0x400 + (0xDC00 + lo - 0xDC00) = c.toNat := by omega
    rw [e, Char.ofNat_toNat]; rfl

theorem andThen_some {c : Char} {o : Option (List Char × List Char)} {s r : List Char} (h : andThen c o = some (s, r)) :
    ∃ s', s = c :: s' ∧ o = some (s', r) := by
  unfold andThen at h
  rw [Option.map_eq_some_iff] at h
  obtain ⟨⟨s', r'⟩, h1, h2⟩ := h
  simp at h2
  exact ⟨s', h2.1.symm, by rw [h1, h2.2]⟩

theorem body_sound (n : Nat) : ∀ {t s r : List Char}, t.length ≤ n → strBody t = some (s, r) →
    ∃ b, t = b ++ '"' :: r ∧ Body s b := by
  induction n with
  | zero =>
    intro t s r hn h
    have : t = [] := by cases t <;> simp_all
    subst this; simp [strBody] at h
  | succ n ih =>
    intro t s r hn h
    rw [strBody.eq_def] at h
    split at h
    · simp at h
    · simp at h; obtain ⟨rfl, rfl⟩ := h; exact ⟨[], rfl, .nil⟩
    · next a b c d rest =>
      split at h
      · simp at h
      · next k hk =>
        split at h
        · simp at h
        · next hlow =>
          have hu := (hex4_iff _ _ _ _ _).1 hk
          have hk16 := (hex4_shape hu)
          obtain ⟨_, _, _, _, _, _, hk16⟩ := hk16
          split at h
          · next hhigh =>
            split at h
            · next a' b' c' d' rest' =>
              split at h
              · simp at h
              · next m hm =>
                split at h
                · next hml =>
                  obtain ⟨s', rfl, hr⟩ := andThen_some h
                  obtain ⟨body, e, hb⟩ := ih (by simp at hn ⊢; omega) hr
                  have hv := (hex4_iff _ _ _ _ _).1 hm
                  simp [isHigh] at hhigh
                  simp [isLow] at hml
                  refine ⟨_, ?_, Body.pair [a, b, c, d] [a', b', c', d'] _ (k - 0xD800) (m - 0xDC00) s' body ?_ ?_ ?_ ?_ ?_ hb⟩
                  · rw [e]; simp
                  · have : 0xD800 + (k - 0xD800) = k := by omega
                    rw [this]; exact hu
                  · have : 0xDC00 + (m - 0xDC00) = m := by omega
                    rw [this]; exact hv
                  · omega
                  · omega
                  · exact ofNat_toNat (.inr (by omega))
                · simp at h
            · simp at h
          · next hhigh =>
            obtain ⟨s', rfl, hr⟩ := andThen_some h
            obtain ⟨body, e, hb⟩ := ih (by simp at hn ⊢; omega) hr
            have hx : (Char.ofNat k).toNat = k := by
              apply ofNat_toNat
              simp [isHigh] at hhigh
              simp [isLow] at hlow
              omega
            refine ⟨_, ?_, Body.code [a, b, c, d] (Char.ofNat k) s' body (by rw [hx]; exact hu) hb⟩
            rw [e]; simp
    · next e rest _ =>
      split at h
      · simp at h
      · next c hc =>
        obtain ⟨s', rfl, hr⟩ := andThen_some h
        obtain ⟨body, e, hb⟩ := ih (by simp at hn ⊢; omega) hr
        exact ⟨_, by rw [e]; rfl, Body.escape _ _ s' body ((escape_iff _ _).1 hc) hb⟩
    · next c rest hq _ _ =>
      split at h
      · simp at h
      · next hc =>
        push Not at hc
        obtain ⟨s', rfl, hr⟩ := andThen_some h
        obtain ⟨body, e, hb⟩ := ih (by simp at hn ⊢; omega) hr
        refine ⟨_, by rw [e]; rfl, Body.plain c s' body ?_ hc.1 hc.2 hb⟩
        exact hq

/-! ## Proofs: values -/

theorem str_complete {k : String} {u : List Char} (h : StrText k u) (r : List Char) :
    ∃ b s, u = '"' :: b ∧ strBody (b ++ r) = some (s, r) ∧ k = String.ofList s := by
  cases h with
  | mk s b h => exact ⟨b ++ ['"'], s, rfl, by rw [List.append_assoc]; exact body_complete h r, rfl⟩

theorem str_sound {t s r : List Char} (h : strBody t = some (s, r)) : ∃ u, '"' :: t = u ++ r ∧ StrText (String.ofList s) u := by
  obtain ⟨b, e, hb⟩ := body_sound t.length (le_refl _) h
  exact ⟨_, by rw [e]; simp, .mk s b hb⟩

/-- Whether a value is a number, whose end depends on what follows -/
def isNum : Json F → Bool
  | .num _ => true
  | _ => false

theorem num_head {dec : List Char → Option F} {n : Num F} {u : List Char} (h : NumText dec n u) :
    ∃ c r, u = c :: r ∧ (c = '-' ∨ isDigit c = true) := by
  have hi : ∀ {i : List Char}, IsInt i → ∃ c r, i = c :: r ∧ isDigit c = true := by
    intro i h
    cases h with
    | zero => exact ⟨_, _, rfl, by decide⟩
    | pos c ds hc h => exact ⟨_, _, rfl, (pos_digit hc).2⟩
  cases h with
  | nat i h hb =>
    obtain ⟨c, r, rfl, hc⟩ := hi h
    exact ⟨_, _, rfl, .inr hc⟩
  | neg n i h hn hb => exact ⟨_, _, rfl, .inl rfl⟩
  | float sg i f e x hs hi' hf he hx hd =>
    obtain ⟨c, r, rfl, hc⟩ := hi hi'
    rcases hs with rfl | rfl
    · exact ⟨c, r ++ f ++ e, by simp, .inr hc⟩
    · exact ⟨'-', _, rfl, .inl rfl⟩

/-- A character that can begin a value -/
def valueStart (c : Char) : Bool :=
  c == 'n' || c == 't' || c == 'f' || c == '"' || c == '[' || c == '{' || c == '-' || isDigit c

theorem val_head {dec : List Char → Option F} {d : Nat} {j : Json F} {u : List Char} (h : Val dec d j u) :
    ∃ c r, u = c :: r ∧ valueStart c = true := by
  cases h with
  | null => exact ⟨_, _, rfl, by decide⟩
  | true => exact ⟨_, _, rfl, by decide⟩
  | false => exact ⟨_, _, rfl, by decide⟩
  | num _ n _ h =>
    obtain ⟨c, r, rfl, hc⟩ := num_head h
    refine ⟨c, r, rfl, ?_⟩
    rcases hc with rfl | hc
    · decide
    · simp [valueStart, hc]
  | str _ s _ h =>
    cases h
    exact ⟨_, _, rfl, by decide⟩
  | arr0 => exact ⟨_, _, rfl, by decide⟩
  | arr => exact ⟨_, _, rfl, by decide⟩
  | obj0 => exact ⟨_, _, rfl, by decide⟩
  | obj => exact ⟨_, _, rfl, by decide⟩

theorem start_not_blank {c : Char} (h : valueStart c = true) : isBlank c = false ∧ c ≠ ']' ∧ c ≠ '}' ∧ c ≠ ',' := by
  by_contra hx
  have : c = ' ' ∨ c = '\n' ∨ c = '\t' ∨ c = '\r' ∨ c = ']' ∨ c = '}' ∨ c = ',' := by
    by_contra hy
    push Not at hy
    apply hx
    refine ⟨?_, hy.2.2.2.2.1, hy.2.2.2.2.2.1, hy.2.2.2.2.2.2⟩
    cases hb : isBlank c
    · rfl
    · rw [isBlank_iff] at hb; tauto
  rcases this with rfl | rfl | rfl | rfl | rfl | rfl | rfl <;> exact absurd h (by decide)

theorem skip_val {dec : List Char → Option F} {d : Nat} {j : Json F} {u : List Char} (h : Val dec d j u) {w : List Char} (hw : Blank w)
    (r : List Char) : skip (w ++ (u ++ r)) = u ++ r := by
  obtain ⟨c, s, rfl, hc⟩ := val_head h
  rw [skip_blank w _ hw, List.cons_append, skip_cons _ (start_not_blank hc).1]

theorem stop_of_blank {w : List Char} (hw : Blank w) {c : Char} (hc : numChar c = false) (r : List Char) : NumStop (w ++ c :: r) := by
  intro x s e
  cases w with
  | nil => simp at e; rw [← e.1]; exact hc
  | cons y w =>
    simp at e
    have := hw y (by simp)
    rw [← e.1]
    rcases this with rfl | rfl | rfl | rfl <;> decide

theorem skip_to {w : List Char} (hw : Blank w) {c : Char} (hc : isBlank c = false) (r : List Char) : skip (w ++ c :: r) = c :: r := by
  rw [skip_blank w _ hw, skip_cons _ hc]

variable {dec : List Char → Option F}

theorem value_num {n : Num F} {u : List Char} (h : NumText dec n u) (fuel d : Nat) (r : List Char) (hr : NumStop r) :
    value dec (fuel + 1) d (u ++ r) = some (.num n, r) := by
  have hn := number_complete dec h r hr
  obtain ⟨c, s, rfl, hc⟩ := num_head h
  rw [List.cons_append] at hn ⊢
  rw [value]
  have : c ≠ 'n' ∧ c ≠ 't' ∧ c ≠ 'f' ∧ c ≠ '"' ∧ c ≠ '[' ∧ c ≠ '{' := by
    refine ⟨?_, ?_, ?_, ?_, ?_, ?_⟩ <;>
    · rintro rfl
      rcases hc with hc | hc
      · exact absurd hc (by decide)
      · exact absurd hc (by decide)
  simp only [this, if_false, hn, Option.map_some]

/-- Elements start with a value, so the list is not closed at once. -/
theorem items_open {d : Nat} {l : List (Json F)} {v : List Char} (h : Items dec d l v) (r : List Char) :
    ∃ c s, skip (v ++ r) = c :: s ∧ c ≠ ']' := by
  cases h with
  | one _ j w u w' hw h hw' =>
    have := skip_val h hw (w' ++ r)
    obtain ⟨c, s, rfl, hc⟩ := val_head h
    exact ⟨c, _, by simpa using this, (start_not_blank hc).2.1⟩
  | cons _ j l w u w' v hw h hw' hl =>
    have := skip_val h hw (w' ++ ',' :: v ++ r)
    obtain ⟨c, s, rfl, hc⟩ := val_head h
    exact ⟨c, _, by simpa using this, (start_not_blank hc).2.1⟩

theorem members_open {d : Nat} {l : Entries F} {v : List Char} (h : Members dec d l v) (r : List Char) :
    ∃ s, skip (v ++ r) = '"' :: s := by
  cases h with
  | one _ k j w ku w1 w2 u w' hw hk hw1 hw2 h hw' =>
    cases hk with
    | mk s b h => exact ⟨_, by simp only [List.append_assoc, List.cons_append]; exact skip_to hw (by decide) _⟩
  | cons _ k j l w ku w1 w2 u w' v hw hk hw1 hw2 h hw' hl =>
    cases hk with
    | mk s b h => exact ⟨_, by simp only [List.append_assoc, List.cons_append]; exact skip_to hw (by decide) _⟩

mutual
theorem val_complete {d : Nat} {j : Json F} {u : List Char} (h : Val dec d j u) (fuel : Nat) (hf : 2 * u.length + 1 ≤ fuel) (r : List Char)
    (hr : isNum j = true → NumStop r) : value dec fuel d (u ++ r) = some (j, r) := by
  obtain ⟨fuel, rfl⟩ : ∃ k, fuel = k + 1 := ⟨fuel - 1, by omega⟩
  cases h with
  | null => rw [show "null".toList ++ r = 'n' :: ("ull".toList ++ r) from rfl, value]; rfl
  | true => rw [show "true".toList ++ r = 't' :: ("rue".toList ++ r) from rfl, value]; rfl
  | false => rw [show "false".toList ++ r = 'f' :: ("alse".toList ++ r) from rfl, value]; rfl
  | num _ n _ h => exact value_num h fuel d r (hr rfl)
  | str _ s _ h =>
    obtain ⟨b, x, rfl, hb, rfl⟩ := str_complete h r
    rw [List.cons_append, value]
    simp [hb]
  | arr0 d w hw =>
    rw [List.cons_append, value]
    have : skip (w ++ ']' :: r) = ']' :: r := skip_to hw (by decide) r
    simp [this, deeper]
  | arr d l v h =>
    rw [List.cons_append, List.append_assoc, value]
    have ih := items_complete h fuel (by simp at hf; omega) r
    obtain ⟨c, s, e, hc⟩ := items_open h (']' :: r)
    simp only [List.cons_append, List.nil_append, e, deeper]
    simp [hc, ih]
  | obj0 d w hw =>
    rw [List.cons_append, value]
    have : skip (w ++ '}' :: r) = '}' :: r := skip_to hw (by decide) r
    simp [this, deeper]
  | obj d l v h =>
    rw [List.cons_append, List.append_assoc, value]
    have ih := members_complete h fuel (by simp at hf; omega) r
    obtain ⟨s, e⟩ := members_open h ('}' :: r)
    simp only [List.cons_append, List.nil_append, e, deeper]
    simp [ih]

theorem items_complete {d : Nat} {l : List (Json F)} {v : List Char} (h : Items dec d l v) (fuel : Nat) (hf : 2 * v.length + 2 ≤ fuel)
    (r : List Char) : items dec fuel d (v ++ ']' :: r) = some (l, r) := by
  obtain ⟨fuel, rfl⟩ : ∃ k, fuel = k + 1 := ⟨fuel - 1, by omega⟩
  cases h with
  | one _ j w u w' hw h hw' =>
    have ih := val_complete h fuel (by simp at hf; omega) (w' ++ ']' :: r) (fun _ => stop_of_blank hw' (by decide) r)
    have e := skip_val h hw (w' ++ ']' :: r)
    have e2 : skip (w' ++ ']' :: r) = ']' :: r := skip_to hw' (by decide) r
    rw [items]
    simp only [List.append_assoc] at e ih ⊢
    rw [e, ih]
    simp [e2]
  | cons _ j l w u w' v hw h hw' hl =>
    have ih := val_complete h fuel (by simp at hf; omega) (w' ++ ',' :: (v ++ ']' :: r))
      (fun _ => stop_of_blank hw' (by decide) _)
    have ih2 := items_complete hl fuel (by simp at hf; omega) r
    have e := skip_val h hw (w' ++ ',' :: (v ++ ']' :: r))
    have e2 : skip (w' ++ ',' :: (v ++ ']' :: r)) = ',' :: (v ++ ']' :: r) := skip_to hw' (by decide) _
    rw [items]
    simp only [List.append_assoc, List.cons_append] at e ih ⊢
    rw [e, ih]
    simp [e2, ih2]

theorem members_complete {d : Nat} {l : Entries F} {v : List Char} (h : Members dec d l v) (fuel : Nat) (hf : 2 * v.length + 2 ≤ fuel)
    (r : List Char) : members dec fuel d (v ++ '}' :: r) = some (l, r) := by
  obtain ⟨fuel, rfl⟩ : ∃ k, fuel = k + 1 := ⟨fuel - 1, by omega⟩
  cases h with
  | one _ k j w ku w1 w2 u w' hw hk hw1 hw2 h hw' =>
    have ih := val_complete h fuel (by simp at hf; omega) (w' ++ '}' :: r) (fun _ => stop_of_blank hw' (by decide) r)
    have e := skip_val h hw2 (w' ++ '}' :: r)
    have e2 : skip (w' ++ '}' :: r) = '}' :: r := skip_to hw' (by decide) r
    obtain ⟨b, x, rfl, hb, rfl⟩ := str_complete hk (w1 ++ ':' :: (w2 ++ (u ++ (w' ++ '}' :: r))))
    have e3 : skip (w1 ++ ':' :: (w2 ++ (u ++ (w' ++ '}' :: r)))) = ':' :: (w2 ++ (u ++ (w' ++ '}' :: r))) := skip_to hw1 (by decide) _
    rw [members]
    simp only [List.append_assoc, List.cons_append] at e ih hb ⊢
    rw [skip_to hw (by decide)]
    simp only [hb, e3, e, ih, e2]
  | cons _ k j l w ku w1 w2 u w' v hw hk hw1 hw2 h hw' hl =>
    have ih := val_complete h fuel (by simp at hf; omega) (w' ++ ',' :: (v ++ '}' :: r)) (fun _ => stop_of_blank hw' (by decide) _)
    have ih2 := members_complete hl fuel (by simp at hf; omega) r
    have e := skip_val h hw2 (w' ++ ',' :: (v ++ '}' :: r))
    have e2 : skip (w' ++ ',' :: (v ++ '}' :: r)) = ',' :: (v ++ '}' :: r) := skip_to hw' (by decide) _
    obtain ⟨b, x, rfl, hb, rfl⟩ := str_complete hk (w1 ++ ':' :: (w2 ++ (u ++ (w' ++ ',' :: (v ++ '}' :: r)))))
    have e3 : skip (w1 ++ ':' :: (w2 ++ (u ++ (w' ++ ',' :: (v ++ '}' :: r))))) = ':' :: (w2 ++ (u ++ (w' ++ ',' :: (v ++ '}' :: r)))) :=
      skip_to hw1 (by decide) _
    rw [members]
    simp only [List.append_assoc, List.cons_append] at e ih hb ⊢
    rw [skip_to hw (by decide)]
    simp only [hb, e3, e, ih, e2, ih2, Option.map_some]
end

theorem lit_sound {w s r : List Char} {j j' : Json F} (h : lit w j s = some (j', r)) : s = w ++ r ∧ j' = j := by
  unfold lit at h
  split at h
  · next hp =>
    simp only [Option.some.injEq, Prod.mk.injEq] at h
    obtain ⟨rfl, rfl⟩ := h
    rw [List.isPrefixOf_iff_prefix] at hp
    obtain ⟨t, rfl⟩ := hp
    simp
  · simp at h

theorem deeper_some {α : Type} {d : Nat} {f : Nat → Option α} {x : α} (h : deeper d f = some x) : ∃ k, d = k + 1 ∧ f k = some x := by
  cases d with
  | zero => simp [deeper] at h
  | succ k => exact ⟨k, rfl, h⟩

theorem map_pair {α β : Type} {o : Option (α × List Char)} {f : α → β} {y : β} {r : List Char}
    (h : (o.map fun x => (f x.1, x.2)) = some (y, r)) : ∃ x, o = some (x, r) ∧ y = f x := by
  rw [Option.map_eq_some_iff] at h
  obtain ⟨⟨x, r'⟩, h1, h2⟩ := h
  simp only [Prod.mk.injEq] at h2
  obtain ⟨rfl, rfl⟩ := h2
  exact ⟨x, h1, rfl⟩

theorem all_sound (fuel : Nat) :
    (∀ {d : Nat} {s r : List Char} {j : Json F}, value dec fuel d s = some (j, r) → ∃ u, s = u ++ r ∧ Val dec d j u) ∧
    (∀ {d : Nat} {s r : List Char} {l : List (Json F)}, items dec fuel d s = some (l, r) →
      ∃ v, s = v ++ ']' :: r ∧ Items dec d l v) ∧
    (∀ {d : Nat} {s r : List Char} {l : Entries F}, members dec fuel d s = some (l, r) →
      ∃ v, s = v ++ '}' :: r ∧ Members dec d l v) := by
  induction fuel with
  | zero =>
    refine ⟨?_, ?_, ?_⟩
    · intro d s r j h; rw [value] at h; simp at h
    · intro d s r j h; rw [items] at h; simp at h
    · intro d s r j h; rw [members] at h; simp at h
  | succ fuel ih =>
    obtain ⟨ihv, ihi, ihm⟩ := ih
    refine ⟨?_, ?_, ?_⟩
    · intro d s r j h
      cases s with
      | nil => rw [value] at h; simp at h
      | cons c s =>
        rw [value] at h
        split at h
        · next e =>
          subst e
          obtain ⟨rfl, rfl⟩ := lit_sound h
          exact ⟨_, rfl, .null d⟩
        · split at h
          · next e =>
            subst e
            obtain ⟨rfl, rfl⟩ := lit_sound h
            exact ⟨_, rfl, .true d⟩
          · split at h
            · next e =>
              subst e
              obtain ⟨rfl, rfl⟩ := lit_sound h
              exact ⟨_, rfl, .false d⟩
            · split at h
              · next e =>
                subst e
                obtain ⟨x, hx, rfl⟩ := map_pair (f := fun x => Json.str (String.ofList x)) h
                obtain ⟨u, e, hu⟩ := str_sound hx
                exact ⟨u, e, .str d _ _ hu⟩
              · split at h
                · next e =>
                  subst e
                  obtain ⟨k, rfl, hd⟩ := deeper_some h; clear h; rename' hd => h
                  obtain ⟨w, hw, es⟩ := skip_split s
                  split at h
                  · next r' e =>
                    simp only [Option.some.injEq, Prod.mk.injEq] at h
                    obtain ⟨rfl, rfl⟩ := h
                    rw [e] at es
                    exact ⟨_, by rw [es]; simp, .arr0 k w hw⟩
                  · obtain ⟨l, hl, rfl⟩ := map_pair (f := Json.arr) h
                    obtain ⟨v, e, hv⟩ := ihi hl
                    exact ⟨_, by rw [e]; simp, .arr k l v hv⟩
                · split at h
                  · next e =>
                    subst e
                    obtain ⟨k, rfl, hd⟩ := deeper_some h; clear h; rename' hd => h
                    obtain ⟨w, hw, es⟩ := skip_split s
                    split at h
                    · next r' e =>
                      simp only [Option.some.injEq, Prod.mk.injEq] at h
                      obtain ⟨rfl, rfl⟩ := h
                      rw [e] at es
                      exact ⟨_, by rw [es]; simp, .obj0 k w hw⟩
                    · obtain ⟨l, hl, rfl⟩ := map_pair (f := Json.obj) h
                      obtain ⟨v, e, hv⟩ := ihm hl
                      exact ⟨_, by rw [e]; simp, .obj k l v hv⟩
                  · obtain ⟨n, hn, rfl⟩ := map_pair (f := Json.num) h
                    obtain ⟨u, e, hu⟩ := number_sound dec hn
                    exact ⟨u, e, .num d n u hu⟩
    · intro d s r l h
      rw [items] at h
      obtain ⟨w, hw, es⟩ := skip_split s
      split at h
      · simp at h
      · next j r1 hj =>
        obtain ⟨u, eu, hu⟩ := ihv hj
        obtain ⟨w', hw', er⟩ := skip_split r1
        split at h
        · next r' e =>
          obtain ⟨l', hl, rfl⟩ := map_pair (f := fun x => j :: x) h
          obtain ⟨v, ev, hv⟩ := ihi hl
          rw [e] at er
          exact ⟨_, by rw [es, eu, er, ev]; simp, .cons d j l' w u w' v hw hu hw' hv⟩
        · next r' e =>
          simp only [Option.some.injEq, Prod.mk.injEq] at h
          obtain ⟨rfl, rfl⟩ := h
          rw [e] at er
          exact ⟨_, by rw [es, eu, er]; simp, .one d j w u w' hw hu hw'⟩
        · simp at h
    · intro d s r l h
      rw [members] at h
      obtain ⟨w, hw, es⟩ := skip_split s
      split at h
      · next s1 e1 =>
        split at h
        · simp at h
        · next k r1 hk =>
          obtain ⟨ku, ek, hku⟩ := str_sound hk
          obtain ⟨w1, hw1, er1⟩ := skip_split r1
          split at h
          · next r2 e2 =>
            obtain ⟨w2, hw2, er2⟩ := skip_split r2
            split at h
            · simp at h
            · next j r3 hj =>
              obtain ⟨u, eu, hu⟩ := ihv hj
              obtain ⟨w', hw', er3⟩ := skip_split r3
              split at h
              · next r' e =>
                obtain ⟨l', hl, rfl⟩ := map_pair (f := fun x => (String.ofList k, j) :: x) h
                obtain ⟨v, ev, hv⟩ := ihm hl
                refine ⟨_, ?_, .cons d _ j l' w ku w1 w2 u w' v hw hku hw1 hw2 hu hw' hv⟩
                rw [es, e1, ek, er1, e2, er2, eu, er3, e, ev]; simp
              · next r' e =>
                simp only [Option.some.injEq, Prod.mk.injEq] at h
                obtain ⟨rfl, rfl⟩ := h
                refine ⟨_, ?_, .one d _ j w ku w1 w2 u w' hw hku hw1 hw2 hu hw'⟩
                rw [es, e1, ek, er1, e2, er2, eu, er3, e]; simp
              · simp at h
          · simp at h
      · simp at h

/-! ## C79: reading texts -/

/-- C79: a text is accepted, as the value `j`, exactly if it is a way of writing `j` with at most 127 levels. -/
theorem c79_reads (dec : List Char → Option F) (t : List Char) (j : Json F) : parse dec t = some j ↔ IsText dec j t := by
  constructor
  · intro h
    unfold parse at h
    split at h
    · simp at h
    · next j' r hv =>
      split at h
      · next hr =>
        simp only [Option.some.injEq] at h
        subst h
        obtain ⟨u, e, hu⟩ := (all_sound _).1 hv
        obtain ⟨w, hw, es⟩ := skip_split t
        exact ⟨w, u, r, hw, hu, (skip_nil_iff r).1 hr, by rw [es, e]; simp⟩
      · simp at h
  · rintro ⟨w, u, w', hw, hu, hw', rfl⟩
    have e : skip (w ++ u ++ w') = u ++ w' := by rw [List.append_assoc]; exact skip_val hu hw w'
    have := val_complete hu (2 * (w ++ u ++ w').length + 1) (by simp; omega) w' (fun _ => by
      intro c s e
      have := hw' c (by rw [e]; simp)
      rcases this with rfl | rfl | rfl | rfl <;> decide)
    unfold parse
    rw [e, this]
    simp [(skip_nil_iff w').2 hw']

/-- C79: a text has one meaning. -/
theorem c79_unambiguous (dec : List Char → Option F) (t : List Char) (j j' : Json F) (h : IsText dec j t) (h' : IsText dec j' t) : j = j' := by
  rw [← c79_reads] at h h'
  rw [h] at h'
  exact Option.some.inj h'

/-- A value other than a number: its end can be seen. -/
theorem prefix_value (dec : List Char → Option F) (p q : List Char) (j j' : Json F) (h : parse dec p = some j) (hn : isNum j = false)
    (h' : parse dec (p ++ q) = some j') : j' = j ∧ Blank q := by
  rw [c79_reads] at h h'
  obtain ⟨w, u, w', hw, hu, hw', rfl⟩ := h
  have hx := h'
  obtain ⟨v, x, v', hv, hx, hv', e⟩ := h'
  have e1 : skip (w ++ u ++ w' ++ q) = u ++ (w' ++ q) := by
    rw [List.append_assoc, List.append_assoc]; exact skip_val hu hw (w' ++ q)
  have e2 : skip (w ++ u ++ w' ++ q) = x ++ v' := by
    rw [e, List.append_assoc]; exact skip_val hx hv v'
  let fuel := 2 * (u.length + x.length) + 1
  have c1 := val_complete hu fuel (by simp only [fuel]; omega) (w' ++ q) (by rw [hn]; simp)
  have c2 := val_complete hx fuel (by simp only [fuel]; omega) v' (fun _ => by
      intro c s e
      have := hv' c (by rw [e]; simp)
      rcases this with rfl | rfl | rfl | rfl <;> decide)
  rw [← e1, e2, c2] at c1
  simp only [Option.some.injEq, Prod.mk.injEq] at c1
  refine ⟨c1.1, ?_⟩
  rw [c1.2] at hv'
  exact (blank_append.1 hv').2

/-- The kind of a value is told by the first character that is not blank. -/
theorem num_of_start {dec : List Char → Option F} {d : Nat} {j : Json F} {c : Char} {r : List Char} (h : Val dec d j (c :: r)) :
    isNum j = true ↔ (c = '-' ∨ isDigit c = true) := by
  generalize hg : c :: r = g at h
  cases h with
  | num _ n _ h =>
    obtain ⟨c', r', e, hc⟩ := num_head h
    rw [e] at hg; simp at hg
    simp [isNum, hg.1, hc]
  | null => simp [isNum] at hg ⊢; rw [hg.1]; decide
  | true => simp [isNum] at hg ⊢; rw [hg.1]; decide
  | false => simp [isNum] at hg ⊢; rw [hg.1]; decide
  | str _ s _ h =>
    cases h with
    | mk s b h => simp [isNum] at hg ⊢; rw [hg.1]; decide
  | arr0 => simp [isNum] at hg ⊢; rw [hg.1]; decide
  | arr => simp [isNum] at hg ⊢; rw [hg.1]; decide
  | obj0 => simp [isNum] at hg ⊢; rw [hg.1]; decide
  | obj => simp [isNum] at hg ⊢; rw [hg.1]; decide

/-- C79: cut texts. If a text is accepted and its value is not a number, then what is left of it after a cut is either
refused, or only blanks were cut and the value is the same. -/
theorem c79_cut (dec : List Char → Option F) (t p q : List Char) (j : Json F) (hn : ∀ n, j ≠ .num n) (h : parse dec t = some j) (e : t = p ++ q) :
    parse dec p = none ∨ (parse dec p = some j ∧ Blank q) := by
  subst e
  cases hp : parse dec p with
  | none => exact .inl rfl
  | some j' =>
    right
    have hnum : isNum j' = false := by
      have a := (c79_reads dec p j').1 hp
      have b := (c79_reads dec (p ++ q) j).1 h
      obtain ⟨w, u, w', hw, hu, hw', rfl⟩ := a
      obtain ⟨v, x, v', hv, hx, hv', e⟩ := b
      have e1 : skip (w ++ u ++ w' ++ q) = u ++ (w' ++ q) := by
        rw [List.append_assoc, List.append_assoc]; exact skip_val hu hw (w' ++ q)
      have e2 : skip (w ++ u ++ w' ++ q) = x ++ v' := by
        rw [e, List.append_assoc]; exact skip_val hx hv v'
      rw [e1] at e2
      obtain ⟨c, s, rfl, hc⟩ := val_head hu
      obtain ⟨c', s', rfl, hc'⟩ := val_head hx
      simp at e2
      have i1 := num_of_start hu
      have i2 := num_of_start hx
      rw [e2.1] at i1
      cases hj : isNum j' with
      | false => rfl
      | true =>
        have := i2.2 (i1.1 hj)
        cases j with
        | num n => exact absurd rfl (hn n)
        | _ => simp [isNum] at this
    have := prefix_value dec p q j' j hp hnum h
    exact ⟨by rw [this.1], this.2⟩

end Verif.Trace.Ctf.Text
