/-
C70: the search for a suitable clang++ (src/clang.rs).
-/
import Mathlib.Tactic.Linarith
import Mathlib.Tactic.Ring
import Mathlib.Data.List.Basic

set_option autoImplicit false
set_option linter.unusedVariables false
set_option linter.unusedSimpArgs false

namespace Verif.Build.Clang

/-! ## Model -/

/-- `MIN_VERSION` (clang.rs 15). -/
def MIN_VERSION : Nat := 9

/-- What running `clang++ --version` gives (clang.rs 23-32): it cannot be run, or it ends with a status and an output
(`none`: not UTF-8). -/
inductive Run where
  | ioError (notFound : Bool)
  | output (success : Bool) (stdout : Option (List Char))

/-- `ClangError` (clang.rs 52-84), without the payloads that come from the system. -/
inductive ClangError where
  | notFound | ioError | badStatus | notUtf8 | emptyVersion
  | unexpectedVersion (line : List Char)
  | ancientVersion (v : Nat)
  deriving DecidableEq

/-- `stdout.lines().next()` (clang.rs 31): up to the first `\n`, without it and a `\r` before it; `none` for an empty
text. A `\r` at the very end of the text is kept. -/
def firstLine (s : List Char) : Option (List Char) :=
  if s = [] then none
  else
    let l := s.takeWhile (· ≠ '\n')
    if l.length < s.length ∧ l.getLast? = some '\r' then some l.dropLast else some l

/-- "clang version " -/
def header : List Char := ['c', 'l', 'a', 'n', 'g', ' ', 'v', 'e', 'r', 's', 'i', 'o', 'n', ' ']

/-- A match of the regular expression of line 36 at the start of the text: the text of `major_version`. `digit` is the
class `\d` (Unicode decimal digits). The repetition is greedy; giving digits back cannot help, as `.` is not a digit. -/
def matchHere (digit : Char → Bool) (s : List Char) : Option (List Char) :=
  if header.isPrefixOf s then
    let t := s.drop header.length
    let ds := t.takeWhile digit
    if ds ≠ [] then
      match t.dropWhile digit with
      | c :: d :: _ => if c = '.' ∧ digit d = true then some ds else none
      | _ => none
    else none
  else none

/-- `version_regex.captures(line)` (clang.rs 37): the leftmost match. -/
def search (digit : Char → Bool) : List Char → Option (List Char)
  | [] => none
  | c :: s => match matchHere digit (c :: s) with
    | some ds => some ds
    | none => search digit s

/-- `str::parse::<usize>` on a text that consists of digits (clang.rs 39): all of them must be ASCII, and the number
less than 2^64. -/
def parseUsize (ds : List Char) : Option Nat :=
  if ds.all Char.isDigit then
    let v := ds.foldl (fun a c => 10 * a + (c.toNat - '0'.toNat)) 0
    if v < 2 ^ 64 then some v else none
  else none

/-- `find_clangpp` (clang.rs 22-49). -/
def findClangpp (digit : Char → Bool) : Run → Except ClangError Unit
  | .ioError true => .error .notFound
  | .ioError false => .error .ioError
  | .output false _ => .error .badStatus
  | .output true none => .error .notUtf8
  | .output true (some stdout) =>
    match firstLine stdout with
    | none => .error .emptyVersion
    | some line =>
      match (search digit line).bind parseUsize with
      | some v => if v ≥ MIN_VERSION then .ok () else .error (.ancientVersion v)
      | none => .error (.unexpectedVersion line)

/-! ## Specification -/

/-- The classes of characters that `\d` may be: ASCII digits belong to it, and the characters `.`,
`\n` and `\r` do not. -/
structure Digits (digit : Char → Bool) : Prop where
  ascii : ∀ c : Char, c.isDigit = true → digit c = true
  dot : digit '.' = false
  newline : digit '\n' = false
  return' : digit '\r' = false

/-- `line` tells a version at the position after `pre`: `clang version <major>.<digit>`. -/
def TellsAt (digit : Char → Bool) (line pre major : List Char) : Prop :=
  ∃ d post, line = pre ++ "clang version ".toList ++ major ++ '.' :: d :: post ∧ major ≠ [] ∧
    (∀ c ∈ major, digit c = true) ∧ digit d = true

/-- `line` tells a version, the first one it tells being `major`. -/
def Tells (digit : Char → Bool) (line major : List Char) : Prop :=
  ∃ pre, TellsAt digit line pre major ∧ ∀ pre' m, TellsAt digit line pre' m → pre.length ≤ pre'.length

/-- The number written with the ASCII decimal digits `ds`, most significant first; `none` if there is another
character. -/
def number : List Char → Option Nat
  | [] => some 0
  | c :: ds => do
    let n ← number ds
    if '0' ≤ c ∧ c ≤ '9' then some ((c.toNat - 48) * 10 ^ ds.length + n) else none

/-- The first line of a non-empty text, the line ending being `\n` or `\r\n`. -/
def IsFirstLine (s line : List Char) : Prop :=
  '\n' ∉ line ∧
    ((s = line ∧ s ≠ []) ∨ (∃ r, s = line ++ '\r' :: '\n' :: r) ∨
      ((∃ r, s = line ++ '\n' :: r) ∧ ∀ l, line ≠ l ++ ['\r']))

/-! ## Proof -/

theorem takeWhile_line (l r : List Char) (h : '\n' ∉ l) : (l ++ '\n' :: r).takeWhile (· ≠ '\n') = l := by
  rw [List.takeWhile_append_of_pos (by intro a ha; simp; rintro rfl; exact h ha)]
  simp

theorem takeWhile_all (l : List Char) (h : '\n' ∉ l) : l.takeWhile (· ≠ '\n') = l := by
  have := List.takeWhile_append_of_pos (p := (· ≠ '\n')) (l₁ := l) (l₂ := [])
    (by intro a ha; simp; rintro rfl; exact h ha)
  simpa using this

theorem mem_takeWhile {p : Char → Bool} {l : List Char} {x : Char} (h : x ∈ l.takeWhile p) : p x = true := by
  induction l with
  | nil => simp at h
  | cons a l ih =>
    rw [List.takeWhile_cons] at h
    cases hp : p a with
    | false => rw [hp] at h; simp at h
    | true =>
      rw [hp] at h
      simp only [if_true, List.mem_cons] at h
      rcases h with rfl | h
      · exact hp
      · exact ih h

theorem firstLine_iff (s line : List Char) : firstLine s = some line ↔ IsFirstLine s line := by
  have hsplit : ('\n' ∉ s) ∨ ∃ l r, s = l ++ '\n' :: r ∧ '\n' ∉ l := by
    by_cases h : '\n' ∈ s
    · right
      obtain ⟨l, r, h1, h2⟩ := List.eq_append_cons_of_mem h
      exact ⟨l, r, h1, h2⟩
    · exact Or.inl h
  unfold firstLine
  rcases hsplit with h | ⟨l, r, rfl, hl⟩
  · by_cases hs : s = []
    · subst hs
      simp [IsFirstLine]
    · rw [if_neg hs]
      simp only [takeWhile_all s h, Nat.lt_irrefl, false_and, if_false, Option.some.injEq]
      constructor
      · rintro rfl; exact ⟨h, Or.inl ⟨rfl, hs⟩⟩
      · rintro ⟨-, ⟨rfl, -⟩ | ⟨r, rfl⟩ | ⟨⟨r, rfl⟩, -⟩⟩
        · rfl
        · simp at h
        · simp at h
  · rw [if_neg (by simp)]
    simp only [takeWhile_line l r hl]
    have hlt : l.length < (l ++ '\n' :: r).length := by simp
    by_cases hlast : l.getLast? = some '\r'
    · rw [if_pos ⟨hlt, hlast⟩]
      obtain ⟨l', rfl⟩ : ∃ l', l = l' ++ ['\r'] := by
        rw [List.getLast?_eq_some_iff] at hlast; exact hlast
      rw [List.dropLast_concat, Option.some.injEq]
      constructor
      · rintro rfl
        exact ⟨by simp at hl; exact hl, Or.inr (Or.inl ⟨r, by simp⟩)⟩
      · rintro ⟨hn, ⟨h1, -⟩ | ⟨r', h1⟩ | ⟨⟨r', h1⟩, h2⟩⟩
        · rw [← h1] at hn; simp at hn
        · have h3 := congrArg (List.takeWhile (· ≠ '\n')) h1
          rw [takeWhile_line _ _ hl, show line ++ '\r' :: '\n' :: r' = (line ++ ['\r']) ++ '\n' :: r' by simp,
            takeWhile_line _ _ (by simp; exact hn)] at h3
          simpa using h3
        · have h3 := congrArg (List.takeWhile (· ≠ '\n')) h1
          rw [takeWhile_line _ _ hl, takeWhile_line _ _ hn] at h3
          exact absurd h3.symm (h2 _)
    · rw [if_neg (fun h => hlast h.2), Option.some.injEq]
      constructor
      · rintro rfl
        refine ⟨hl, Or.inr (Or.inr ⟨⟨r, rfl⟩, ?_⟩)⟩
        rintro l' rfl
        simp at hlast
      · rintro ⟨hn, ⟨h1, -⟩ | ⟨r', h1⟩ | ⟨⟨r', h1⟩, h2⟩⟩
        · rw [← h1] at hn; simp at hn
        · have h3 := congrArg (List.takeWhile (· ≠ '\n')) h1
          rw [takeWhile_line _ _ hl, show line ++ '\r' :: '\n' :: r' = (line ++ ['\r']) ++ '\n' :: r' by simp,
            takeWhile_line _ _ (by simp; exact hn)] at h3
          rw [h3] at hlast; simp at hlast
        · have h3 := congrArg (List.takeWhile (· ≠ '\n')) h1
          rw [takeWhile_line _ _ hl, takeWhile_line _ _ hn] at h3
          exact h3

theorem header_eq : "clang version ".toList = header := rfl

theorem span_digits (digit : Char → Bool) (D : Digits digit) (major r : List Char) (h : ∀ c ∈ major, digit c = true) :
    (major ++ '.' :: r).takeWhile digit = major ∧ (major ++ '.' :: r).dropWhile digit = '.' :: r := by
  constructor
  · rw [List.takeWhile_append_of_pos h]; simp [D.dot]
  · rw [List.dropWhile_append_of_pos h]; simp [D.dot]

theorem matchHere_iff (digit : Char → Bool) (D : Digits digit) (s major : List Char) :
    matchHere digit s = some major ↔ TellsAt digit s [] major := by
  unfold matchHere TellsAt
  rw [header_eq]
  constructor
  · intro h
    by_cases hp : header.isPrefixOf s = true
    · rw [if_pos hp] at h
      rw [List.isPrefixOf_iff_prefix] at hp
      obtain ⟨t, rfl⟩ := hp
      simp only [List.drop_left] at h
      by_cases hd : t.takeWhile digit ≠ []
      · rw [if_pos hd] at h
        have hs := List.takeWhile_append_dropWhile (p := digit) (l := t)
        match hw : t.dropWhile digit with
        | [] => rw [hw] at h; cases h
        | [_] => rw [hw] at h; cases h
        | c :: d :: post =>
          rw [hw] at h hs
          simp only at h
          by_cases hc : c = '.' ∧ digit d = true
          · rw [if_pos hc] at h
            simp only [Option.some.injEq] at h
            subst h
            refine ⟨d, post, ?_, hd, fun x hx => mem_takeWhile hx, hc.2⟩
            rw [← hc.1, List.nil_append, List.append_assoc, hs]
          · rw [if_neg hc] at h; cases h
      · rw [if_neg hd] at h; cases h
    · rw [if_neg hp] at h; cases h
  · rintro ⟨d, post, rfl, hne, hall, hd⟩
    obtain ⟨h1, h2⟩ := span_digits digit D major (d :: post) hall
    have hp : header.isPrefixOf ([] ++ header ++ major ++ '.' :: d :: post) = true := by
      rw [List.isPrefixOf_iff_prefix]; exact ⟨major ++ '.' :: d :: post, by simp⟩
    rw [if_pos hp]
    have hdrop : List.drop header.length ([] ++ header ++ major ++ '.' :: d :: post) = major ++ '.' :: d :: post := by
      rw [List.nil_append, List.append_assoc, List.drop_left]
    simp only [hdrop, h1, h2]
    rw [if_pos hne, if_pos ⟨trivial, hd⟩]

theorem tellsAt_cons (digit : Char → Bool) (c : Char) (s pre m : List Char) :
    TellsAt digit (c :: s) (c :: pre) m ↔ TellsAt digit s pre m := by
  unfold TellsAt; simp

theorem tellsAt_split (digit : Char → Bool) (c : Char) (s pre m : List Char) (h : TellsAt digit (c :: s) pre m) :
    pre = [] ∨ ∃ pre', pre = c :: pre' := by
  obtain ⟨d, post, h1, -⟩ := h
  cases pre with
  | nil => exact Or.inl rfl
  | cons x l =>
    simp only [List.cons_append, List.cons.injEq] at h1
    exact Or.inr ⟨l, by rw [h1.1]⟩

theorem not_tells_nil (digit : Char → Bool) (pre m : List Char) : ¬ TellsAt digit [] pre m := by
  rintro ⟨d, post, h1, -⟩
  have := congrArg List.length h1
  simp at this

/-- A version is told at a position at most once. -/
theorem tellsAt_unique (digit : Char → Bool) (D : Digits digit) (s pre m m' : List Char)
    (h : TellsAt digit s pre m) (h' : TellsAt digit s pre m') : m = m' := by
  induction pre generalizing s with
  | nil =>
    rw [← matchHere_iff digit D] at h h'
    rw [h] at h'
    exact Option.some.inj h'
  | cons c pre ih =>
    cases s with
    | nil => exact absurd h (not_tells_nil _ _ _)
    | cons x s =>
      have hx : x = c := by
        rcases tellsAt_split digit x s _ _ h with e | ⟨p, e⟩
        · cases e
        · simp only [List.cons.injEq] at e; exact e.1.symm
      subst hx
      rw [tellsAt_cons] at h h'
      exact ih s h h'

theorem search_iff (digit : Char → Bool) (D : Digits digit) (s major : List Char) :
    search digit s = some major ↔ Tells digit s major := by
  induction s with
  | nil =>
    constructor
    · intro h; cases h
    · rintro ⟨pre, h, -⟩; exact absurd h (not_tells_nil _ _ _)
  | cons c s ih =>
    unfold search
    cases hm : matchHere digit (c :: s) with
    | some ds =>
      have h0 := (matchHere_iff digit D _ _).1 hm
      simp only [Option.some.injEq]
      constructor
      · rintro rfl
        exact ⟨[], h0, fun _ _ _ => Nat.zero_le _⟩
      · rintro ⟨pre, h, hmin⟩
        have := hmin _ _ h0
        have : pre = [] := List.eq_nil_of_length_eq_zero (by simpa using this)
        subst this
        exact tellsAt_unique digit D _ _ _ _ h0 h
    | none =>
      have h0 : ∀ m, ¬ TellsAt digit (c :: s) [] m := by
        intro m h
        rw [← matchHere_iff digit D, hm] at h; cases h
      simp only
      rw [ih]
      constructor
      · rintro ⟨pre, h, hmin⟩
        refine ⟨c :: pre, (tellsAt_cons _ _ _ _ _).2 h, ?_⟩
        intro pre' m h'
        rcases tellsAt_split _ _ _ _ _ h' with rfl | ⟨p, rfl⟩
        · exact absurd h' (h0 _)
        · have := hmin p m ((tellsAt_cons _ _ _ _ _).1 h')
          simpa using this
      · rintro ⟨pre, h, hmin⟩
        rcases tellsAt_split _ _ _ _ _ h with rfl | ⟨p, rfl⟩
        · exact absurd h (h0 _)
        · refine ⟨p, (tellsAt_cons _ _ _ _ _).1 h, ?_⟩
          intro pre' m h'
          have := hmin (c :: pre') m ((tellsAt_cons _ _ _ _ _).2 h')
          simpa using this

theorem isDigit_iff (c : Char) : c.isDigit = true ↔ '0' ≤ c ∧ c ≤ '9' := by
  simp only [Char.isDigit, Bool.and_eq_true, decide_eq_true_eq]
  exact Iff.rfl

theorem number_fold (ds : List Char) : ∀ (a : Nat), ds.all Char.isDigit = true →
    ∃ n, number ds = some n ∧
      ds.foldl (fun a c => 10 * a + (c.toNat - '0'.toNat)) a = a * 10 ^ ds.length + n := by
  induction ds with
  | nil => intro a _; exact ⟨0, rfl, by simp⟩
  | cons c ds ih =>
    intro a h
    simp only [List.all_cons, Bool.and_eq_true] at h
    obtain ⟨n, hn, hf⟩ := ih (10 * a + (c.toNat - '0'.toNat)) h.2
    refine ⟨(c.toNat - 48) * 10 ^ ds.length + n, ?_, ?_⟩
    · simp only [number, hn, Option.bind_eq_bind, Option.bind_some]
      rw [if_pos ((isDigit_iff c).1 h.1)]
    · rw [List.foldl_cons, hf, List.length_cons, pow_succ]
      have : ('0' : Char).toNat = 48 := rfl
      rw [this]
      ring

theorem number_none (ds : List Char) (h : ds.all Char.isDigit = false) : number ds = none := by
  induction ds with
  | nil => cases h
  | cons c ds ih =>
    simp only [List.all_cons, Bool.and_eq_false_iff] at h
    simp only [number]
    rcases h with h | h
    · have hc : ¬ ('0' ≤ c ∧ c ≤ '9') := by
        rw [← isDigit_iff, h]; simp
      cases number ds with
      | none => rfl
      | some n => simp only [Option.bind_eq_bind, Option.bind_some]; rw [if_neg hc]
    · rw [ih h]; rfl

theorem parseUsize_iff (ds : List Char) (v : Nat) : parseUsize ds = some v ↔ number ds = some v ∧ v < 2 ^ 64 := by
  unfold parseUsize
  cases h : ds.all Char.isDigit with
  | false => rw [number_none ds h]; simp
  | true =>
    obtain ⟨n, hn, hf⟩ := number_fold ds 0 h
    simp only [if_true]
    rw [hf, hn, Nat.zero_mul, Nat.zero_add]
    generalize 2 ^ 64 = W
    by_cases hw : n < W
    · rw [if_pos hw]
      simp only [Option.some.injEq]
      constructor
      · rintro rfl; exact ⟨rfl, hw⟩
      · exact fun h => h.1
    · rw [if_neg hw]
      simp only [Option.some.injEq]
      constructor
      · intro h; cases h
      · rintro ⟨rfl, h⟩; exact absurd h hw

/-! ## C70 -/

/-- The version that the first line of the output tells, if it fits in 64 bits. -/
def Version (digit : Char → Bool) (line : List Char) (v : Nat) : Prop :=
  ∃ major, Tells digit line major ∧ number major = some v ∧ v < 2 ^ 64

theorem version_iff (digit : Char → Bool) (D : Digits digit) (line : List Char) (v : Nat) :
    (search digit line).bind parseUsize = some v ↔ Version digit line v := by
  rw [Option.bind_eq_some_iff]
  constructor
  · rintro ⟨m, h1, h2⟩
    exact ⟨m, (search_iff digit D _ _).1 h1, (parseUsize_iff _ _).1 h2⟩
  · rintro ⟨m, h1, h2⟩
    exact ⟨m, (search_iff digit D _ _).2 h1, (parseUsize_iff _ _).2 h2⟩

/-- **C70.** clang++ is accepted exactly if it can be run, ends with success, and the first line of its output tells a
version whose major number is at least 9. -/
theorem c70_accepted (digit : Char → Bool) (D : Digits digit) (r : Run) :
    findClangpp digit r = .ok () ↔
      ∃ stdout line v, r = .output true (some stdout) ∧ IsFirstLine stdout line ∧ Version digit line v ∧ 9 ≤ v := by
  constructor
  · intro h
    match r, h with
    | .ioError true, h => cases h
    | .ioError false, h => cases h
    | .output false _, h => cases h
    | .output true none, h => cases h
    | .output true (some stdout), h =>
      simp only [findClangpp] at h
      cases hl : firstLine stdout with
      | none => rw [hl] at h; cases h
      | some line =>
        rw [hl] at h
        simp only at h
        cases hv : (search digit line).bind parseUsize with
        | none => rw [hv] at h; cases h
        | some v =>
          rw [hv] at h
          simp only at h
          by_cases h9 : v ≥ MIN_VERSION
          · exact ⟨stdout, line, v, rfl, (firstLine_iff _ _).1 hl, (version_iff digit D _ _).1 hv, h9⟩
          · rw [if_neg h9] at h; cases h
  · rintro ⟨stdout, line, v, rfl, hl, hv, h9⟩
    simp only [findClangpp]
    rw [(firstLine_iff _ _).2 hl]
    simp only
    rw [(version_iff digit D _ _).2 hv]
    exact if_pos h9

/-- **C70.** It is called too old exactly if the version so told is less than 9, and that version is the one shown. -/
theorem c70_ancient (digit : Char → Bool) (D : Digits digit) (r : Run) (v : Nat) :
    findClangpp digit r = .error (.ancientVersion v) ↔
      ∃ stdout line, r = .output true (some stdout) ∧ IsFirstLine stdout line ∧ Version digit line v ∧ v < 9 := by
  constructor
  · intro h
    match r, h with
    | .ioError true, h => cases h
    | .ioError false, h => cases h
    | .output false _, h => cases h
    | .output true none, h => cases h
    | .output true (some stdout), h =>
      simp only [findClangpp] at h
      cases hl : firstLine stdout with
      | none => rw [hl] at h; cases h
      | some line =>
        rw [hl] at h
        simp only at h
        cases hv : (search digit line).bind parseUsize with
        | none => rw [hv] at h; cases h
        | some w =>
          rw [hv] at h
          simp only at h
          by_cases h9 : w ≥ MIN_VERSION
          · rw [if_pos h9] at h; cases h
          · rw [if_neg h9] at h
            simp only [Except.error.injEq, ClangError.ancientVersion.injEq] at h
            subst h
            refine ⟨stdout, line, rfl, (firstLine_iff _ _).1 hl, (version_iff digit D _ _).1 hv, ?_⟩
            unfold MIN_VERSION at h9; omega
  · rintro ⟨stdout, line, rfl, hl, hv, h9⟩
    simp only [findClangpp]
    rw [(firstLine_iff _ _).2 hl]
    simp only
    rw [(version_iff digit D _ _).2 hv]
    exact if_neg (by unfold MIN_VERSION; omega)

/-- **C70.** The output is called unexpected, showing its first line, exactly if that line tells no version (or one that
is not written with ASCII digits or does not fit in 64 bits). -/
theorem c70_unexpected (digit : Char → Bool) (D : Digits digit) (r : Run) (line : List Char) :
    findClangpp digit r = .error (.unexpectedVersion line) ↔
      ∃ stdout, r = .output true (some stdout) ∧ IsFirstLine stdout line ∧ ∀ v, ¬ Version digit line v := by
  constructor
  · intro h
    match r, h with
    | .ioError true, h => cases h
    | .ioError false, h => cases h
    | .output false _, h => cases h
    | .output true none, h => cases h
    | .output true (some stdout), h =>
      simp only [findClangpp] at h
      cases hl : firstLine stdout with
      | none => rw [hl] at h; cases h
      | some line' =>
        rw [hl] at h
        simp only at h
        cases hv : (search digit line').bind parseUsize with
        | none =>
          rw [hv] at h
          simp only [Except.error.injEq, ClangError.unexpectedVersion.injEq] at h
          subst h
          refine ⟨stdout, rfl, (firstLine_iff _ _).1 hl, fun v hv' => ?_⟩
          rw [← version_iff digit D, hv] at hv'; cases hv'
        | some w =>
          rw [hv] at h
          simp only at h
          by_cases h9 : w ≥ MIN_VERSION
          · rw [if_pos h9] at h; cases h
          · rw [if_neg h9] at h; cases h
  · rintro ⟨stdout, rfl, hl, hv⟩
    simp only [findClangpp]
    rw [(firstLine_iff _ _).2 hl]
    simp only
    cases h : (search digit line).bind parseUsize with
    | none => rfl
    | some v => exact absurd ((version_iff digit D _ _).1 h) (hv v)

/-- **C70.** The other failures are told apart: no program, other failure to run it, bad status, output that is not
UTF-8, empty output. -/
theorem c70_other_errors (digit : Char → Bool) (r : Run) :
    (findClangpp digit r = .error .notFound ↔ r = .ioError true) ∧
    (findClangpp digit r = .error .ioError ↔ r = .ioError false) ∧
    (findClangpp digit r = .error .badStatus ↔ ∃ o, r = .output false o) ∧
    (findClangpp digit r = .error .notUtf8 ↔ r = .output true none) ∧
    (findClangpp digit r = .error .emptyVersion ↔ r = .output true (some [])) := by
  match r with
  | .ioError true => simp [findClangpp]
  | .ioError false => simp [findClangpp]
  | .output false o => simp [findClangpp]
  | .output true none => simp [findClangpp]
  | .output true (some s) =>
    cases hl : firstLine s with
    | none =>
      have : s = [] := by
        by_contra hs
        unfold firstLine at hl
        rw [if_neg hs] at hl
        simp only at hl
        split at hl <;> cases hl
      subst this
      simp [findClangpp, hl]
    | some line =>
      have : s ≠ [] := by rintro rfl; cases hl
      simp only [findClangpp, hl]
      cases (search digit line).bind parseUsize with
      | none => simp [this]
      | some v =>
        simp only
        by_cases h9 : v ≥ MIN_VERSION
        · rw [if_pos h9]; simp [this]
        · rw [if_neg h9]; simp [this]

/-- `clang version ` cannot overlap itself. -/
theorem header_overlap (q r t : List Char) (hq : q ≠ []) (h : header ++ r = q ++ (header ++ t)) : header <+: q := by
  rw [List.append_eq_append_iff] at h
  rcases h with ⟨a, rfl, h⟩ | ⟨a, h1, h2⟩
  · exact ⟨a, rfl⟩
  · cases a with
    | nil => rw [List.append_nil] at h1; exact ⟨[], by rw [h1, List.append_nil]⟩
    | cons x a =>
      exfalso
      have hx : x = 'c' := by
        simp only [header, List.cons_append, List.cons.injEq] at h2
        exact h2.1.symm
      subst hx
      cases q with
      | nil => exact hq rfl
      | cons y q =>
        have h3 : header.tail = q ++ 'c' :: a := by rw [h1]; rfl
        have : 'c' ∈ header.tail := by rw [h3]; simp
        revert this
        decide

/-- A line of the usual shape tells its version, and none before. -/
theorem usual_tells (digit : Char → Bool) (D : Digits digit) (pre post major : List Char) (d : Char)
    (hne : major ≠ []) (hm : ∀ c ∈ major, digit c = true) (hd : digit d = true)
    (hno : ¬ "clang version ".toList <:+: pre) :
    Tells digit (pre ++ "clang version ".toList ++ major ++ '.' :: d :: post) major := by
  refine ⟨pre, ⟨d, post, rfl, hne, hm, hd⟩, ?_⟩
  rintro p m ⟨d', post', h, -⟩
  by_contra hlt
  rw [header_eq] at h hno
  simp only [List.append_assoc] at h
  rw [List.append_eq_append_iff] at h
  rcases h with ⟨a, rfl, h⟩ | ⟨a, rfl, h⟩
  · simp at hlt
  · have ha : a ≠ [] := by rintro rfl; simp at hlt
    have := header_overlap a _ _ ha h
    exact hno (this.isInfix.trans (List.suffix_append p a).isInfix)

theorem number_some (ds : List Char) (v : Nat) (h : number ds = some v) : ds.all Char.isDigit = true := by
  by_contra hc
  rw [Bool.not_eq_true] at hc
  rw [number_none ds hc] at h
  cases h

/-- **C70.** For the usual output `<vendor> clang version <major>.<minor>...`, whose vendor part has no line break and
does not contain `clang version `, clang is accepted exactly if the major version is at least 9. -/
theorem c70_usual (digit : Char → Bool) (D : Digits digit) (pre rest major : List Char) (d : Char) (v : Nat)
    (hne : major ≠ []) (hv : number major = some v) (hw : v < 2 ^ 64)
    (hpre : '\n' ∉ pre) (hd : digit d = true) (hno : ¬ "clang version ".toList <:+: pre) :
    findClangpp digit (.output true (some (pre ++ "clang version ".toList ++ major ++ '.' :: d :: rest)))
      = if 9 ≤ v then .ok () else .error (.ancientVersion v) := by
  have hall := number_some _ _ hv
  rw [List.all_eq_true] at hall
  have hm : ∀ c ∈ major, digit c = true := fun c hc => D.ascii c (hall c hc)
  have hmn : '\n' ∉ major := fun h => by have := hm _ h; rw [D.newline] at this; cases this
  have hdn' : d ≠ '\n' := by rintro rfl; rw [D.newline] at hd; cases hd
  obtain ⟨post, hl⟩ : ∃ post, IsFirstLine (pre ++ "clang version ".toList ++ major ++ '.' :: d :: rest)
      (pre ++ "clang version ".toList ++ major ++ '.' :: d :: post) := by
    have hh : '\n' ∉ "clang version ".toList := by decide
    by_cases hr : '\n' ∈ rest
    · obtain ⟨l, r, rfl, hl⟩ := List.eq_append_cons_of_mem hr
      by_cases hlast : ∃ l', l = l' ++ ['\r']
      · obtain ⟨l', rfl⟩ := hlast
        refine ⟨l', ?_, Or.inr (Or.inl ⟨r, by simp⟩)⟩
        simp only [List.mem_append, List.mem_cons, not_or] at hl ⊢
        exact ⟨⟨⟨hpre, hh⟩, hmn⟩, by decide, hdn'.symm, hl.1⟩
      · refine ⟨l, ?_, Or.inr (Or.inr ⟨⟨r, by simp⟩, ?_⟩)⟩
        · simp only [List.mem_append, List.mem_cons, not_or]
          exact ⟨⟨⟨hpre, hh⟩, hmn⟩, by decide, hdn'.symm, hl⟩
        · intro l' h
          rcases List.eq_nil_or_concat l with rfl | ⟨l2, x, rfl⟩
          · have h4 : (pre ++ "clang version ".toList ++ major ++ ['.']) ++ [d] = l' ++ ['\r'] := by
              rw [← h]; simp
            have h5 := (List.append_inj' h4 rfl).2
            simp only [List.cons.injEq, and_true] at h5
            rw [h5, D.return'] at hd; cases hd
          · have h4 : (pre ++ "clang version ".toList ++ major ++ '.' :: d :: l2) ++ [x] = l' ++ ['\r'] := by
              rw [← h]; simp
            have h5 := (List.append_inj' h4 rfl).2
            simp only [List.cons.injEq, and_true] at h5
            exact hlast ⟨l2, by rw [h5]; simp⟩
    · refine ⟨rest, ?_, Or.inl ⟨rfl, by simp⟩⟩
      simp only [List.mem_append, List.mem_cons, not_or]
      exact ⟨⟨⟨hpre, hh⟩, hmn⟩, by decide, hdn'.symm, hr⟩
  have hV : Version digit (pre ++ "clang version ".toList ++ major ++ '.' :: d :: post) v :=
    ⟨major, usual_tells digit D pre post major d hne hm hd hno, hv, hw⟩
  by_cases h9 : 9 ≤ v
  · rw [if_pos h9]; exact (c70_accepted digit D _).2 ⟨_, _, v, rfl, hl, hV, h9⟩
  · rw [if_neg h9]; exact (c70_ancient digit D _ v).2 ⟨_, _, rfl, hl, hV, by omega⟩

/-! ## Concrete cases -/

theorem ascii_digits : Digits Char.isDigit := ⟨fun _ h => h, by decide, by decide, by decide⟩

def run (s : String) : Except ClangError Unit := findClangpp Char.isDigit (.output true (some s.toList))

example : run "Ubuntu clang version 14.0.0-1ubuntu1\nTarget: x86_64-pc-linux-gnu\n" = .ok () := by decide +kernel
example : run "clang version 8.0.1 (tags/RELEASE_801/final)\r\nTarget: x" = .error (.ancientVersion 8) := by
  decide +kernel
example : run "g++ (GCC) 13.2.0\nclang version 14.0.0\n" = .error (.unexpectedVersion "g++ (GCC) 13.2.0".toList) := by
  decide +kernel
example : run "" = .error .emptyVersion := by decide +kernel
example : ¬ "clang version ".toList <:+: "Ubuntu ".toList := by
  intro h
  have := h.length_le
  revert this
  decide

end Verif.Build.Clang
