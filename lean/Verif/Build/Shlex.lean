/-
C75: how the command of a compilation database entry is split into words (cmakeperf/src/commands.rs:190-198, 246-248).
`shlex` 1.3.0 is a dependency; its parser is modelled from its source, on characters instead of bytes (all the characters
it distinguishes are ASCII). All its errors occur at the end of the text, so the iterator simply ends there.
-/
import Verif.Build.Database

set_option autoImplicit false
set_option linter.unusedVariables false
set_option linter.unusedSimpArgs false

namespace Verif.Build.Shlex

/-! ## Model -/

/-- Blanks between words -/
def blank (c : Char) : Bool := c == ' ' || c == '\t' || c == '\n'

/-- shlex `parse_single`: content of a single-quoted string and what follows it -/
def single : List Char → Option (List Char × List Char)
  | [] => none
  | c :: r => if c = '\'' then some ([], r) else (single r).map fun p => (c :: p.1, p.2)

/-- shlex `parse_double`: content of a double-quoted string and what follows it -/
def double : List Char → Option (List Char × List Char)
  | [] => none
  | '\\' :: [] => none
  | '\\' :: c :: r =>
    (double r).map fun p =>
      ((if c = '$' ∨ c = '`' ∨ c = '"' ∨ c = '\\' then [c] else if c = '\n' then [] else ['\\', c]) ++ p.1, p.2)
  | c :: r => if c = '"' then some ([], r) else (double r).map fun p => (c :: p.1, p.2)

theorem single_length (s : List Char) : ∀ w r, single s = some (w, r) → r.length < s.length := by
  induction s with
  | nil => intro w r h; simp [single] at h
  | cons c s ih =>
    intro w r h
    simp only [single] at h
    split at h
    · simp only [Option.some.injEq, Prod.mk.injEq] at h; rw [← h.2]; simp
    · simp only [Option.map_eq_some_iff, Prod.mk.injEq] at h
      obtain ⟨p, hp, -, rfl⟩ := h
      have := ih p.1 p.2 hp
      simp only [List.length_cons]; omega

theorem double_length (s : List Char) : ∀ w r, double s = some (w, r) → r.length < s.length := by
  induction s using double.induct with
  | case1 => intro w r h; simp [double] at h
  | case2 => intro w r h; simp [double] at h
  | case3 c s ih =>
    intro w r h
    simp only [double, Option.map_eq_some_iff, Prod.mk.injEq] at h
    obtain ⟨p, hp, -, rfl⟩ := h
    have := ih p.1 p.2 hp
    simp only [List.length_cons]; omega
  | case4 s h1 h2 =>
    intro w r h
    simp [double] at h
    rw [← h.2]; simp
  | case5 c s h1 h2 hc ih =>
    intro w r h
    have e : double (c :: s) = (double s).map fun p => (c :: p.1, p.2) := by
      rw [double]
      · simp [hc]
      · exact h1
      · exact h2
    rw [e] at h
    simp only [Option.map_eq_some_iff, Prod.mk.injEq] at h
    obtain ⟨p, hp, -, rfl⟩ := h
    have := ih p.1 p.2 hp
    simp only [List.length_cons]; omega

/-- shlex `parse_word`, from the first character of the word: the word and what follows it -/
def word : List Char → Option (List Char × List Char)
  | [] => some ([], [])
  | '\\' :: [] => none
  | '\\' :: c :: r => (word r).map fun p => ((if c = '\n' then [] else [c]) ++ p.1, p.2)
  | c :: r =>
    if c = '"' then
      match h : double r with
      | none => none
      | some (w, r') => (word r').map fun p => (w ++ p.1, p.2)
    else if c = '\'' then
      match h : single r with
      | none => none
      | some (w, r') => (word r').map fun p => (w ++ p.1, p.2)
    else if blank c then some ([], r)
    else (word r).map fun p => (c :: p.1, p.2)
termination_by s => s.length
decreasing_by
  · simp only [List.length_cons]; omega
  · have := double_length r _ _ h; simp only [List.length_cons]; omega
  · have := single_length r _ _ h; simp only [List.length_cons]; omega
  · simp

theorem word_nil : word [] = some ([], []) := by rw [word]

theorem word_bad : word ['\\'] = none := by rw [word]

theorem word_escape (c : Char) (r : List Char) :
    word ('\\' :: c :: r) = (word r).map fun p => ((if c = '\n' then [] else [c]) ++ p.1, p.2) := by
  rw [word]

theorem word_double (r : List Char) : word ('"' :: r) =
    match double r with
    | none => none
    | some (w, r') => (word r').map fun p => (w ++ p.1, p.2) := by
  rw [word]
  · simp only [if_true]
    cases h : double r with
    | none => simp only
    | some p => obtain ⟨w, r'⟩ := p; simp only
  · simp
  · simp

theorem word_single (r : List Char) : word ('\'' :: r) =
    match single r with
    | none => none
    | some (w, r') => (word r').map fun p => (w ++ p.1, p.2) := by
  rw [word]
  · simp only [if_true, if_neg (show ¬ '\'' = '"' by decide)]
    cases h : single r with
    | none => simp only
    | some p => obtain ⟨w, r'⟩ := p; simp only
  · simp
  · simp

theorem word_other (c : Char) (r : List Char) (h1 : c ≠ '\\') (h2 : c ≠ '"') (h3 : c ≠ '\'') :
    word (c :: r) = if blank c then some ([], r) else (word r).map fun p => (c :: p.1, p.2) := by
  rw [word]
  · rw [if_neg h2, if_neg h3]
  · intro e; exact absurd e h1
  · intro _ _ e; exact absurd e h1

/-- End of a comment -/
def comment : List Char → List Char
  | [] => []
  | c :: r => if c = '\n' then r else comment r

theorem comment_length (s : List Char) : (comment s).length ≤ s.length := by
  induction s with
  | nil => simp [comment]
  | cons c s ih => simp only [comment]; split <;> simp only [List.length_cons] <;> omega

/-- Start of the next word: blanks and comments are skipped -/
def start : List Char → List Char
  | [] => []
  | c :: r =>
    if blank c then start r
    else if c = '#' then start (comment r)
    else c :: r
termination_by s => s.length
decreasing_by
  all_goals simp_wf
  · have := comment_length r; omega

/-- shlex `Iterator::next`: `none` at the end or after an error -/
def next (s : List Char) : Option (List Char × List Char) :=
  match start s with
  | [] => none
  | c :: r => word (c :: r)

theorem start_length (s : List Char) : (start s).length ≤ s.length := by
  induction s using start.induct with
  | case1 => simp [start]
  | case2 c r hb ih => rw [start]; simp only [hb, if_true, List.length_cons]; omega
  | case3 r hb ih =>
    rw [start]
    have := comment_length r
    simp only [hb, if_true, List.length_cons, Bool.false_eq_true, if_false]; omega
  | case4 c r hb hc => rw [start]; simp [hb, hc]

theorem word_length (n : Nat) : ∀ s w r, s.length ≤ n → word s = some (w, r) →
    r.length ≤ s.length ∧ (s ≠ [] → r.length < s.length) := by
  induction n with
  | zero =>
    intro s w r hs h
    have : s = [] := List.length_eq_zero_iff.1 (by omega)
    subst this
    rw [word_nil] at h; simp at h; simp [← h.2]
  | succ n ih =>
    intro s w r hs h
    match s with
    | [] => rw [word_nil] at h; simp at h; simp [← h.2]
    | c :: s =>
      simp only [List.length_cons] at hs ⊢
      have goal : r.length ≤ s.length → r.length ≤ s.length + 1 ∧ (c :: s ≠ [] → r.length < s.length + 1) :=
        fun h => ⟨by omega, fun _ => by omega⟩
      apply goal
      by_cases h1 : c = '\\'
      · subst h1
        match s with
        | [] => rw [word_bad] at h; cases h
        | c' :: s =>
          rw [word_escape, Option.map_eq_some_iff] at h
          obtain ⟨p, hp, e⟩ := h
          simp only [Prod.mk.injEq] at e
          simp only [List.length_cons] at hs ⊢
          have := (ih s p.1 p.2 (by omega) hp).1
          rw [← e.2]; omega
      · by_cases h2 : c = '"'
        · subst h2
          rw [word_double] at h
          cases hd : double s with
          | none => rw [hd] at h; cases h
          | some q =>
            obtain ⟨w', r'⟩ := q
            rw [hd] at h
            simp only [Option.map_eq_some_iff] at h
            obtain ⟨p, hp, e⟩ := h
            simp only [Prod.mk.injEq] at e
            have := double_length s _ _ hd
            have := (ih r' p.1 p.2 (by omega) hp).1
            rw [← e.2]; omega
        · by_cases h3 : c = '\''
          · subst h3
            rw [word_single] at h
            cases hd : single s with
            | none => rw [hd] at h; cases h
            | some q =>
              obtain ⟨w', r'⟩ := q
              rw [hd] at h
              simp only [Option.map_eq_some_iff] at h
              obtain ⟨p, hp, e⟩ := h
              simp only [Prod.mk.injEq] at e
              have := single_length s _ _ hd
              have := (ih r' p.1 p.2 (by omega) hp).1
              rw [← e.2]; omega
          · rw [word_other c s h1 h2 h3] at h
            split at h
            · simp only [Option.some.injEq, Prod.mk.injEq] at h; rw [h.2]
            · rw [Option.map_eq_some_iff] at h
              obtain ⟨p, hp, e⟩ := h
              simp only [Prod.mk.injEq] at e
              have := (ih s p.1 p.2 (by omega) hp).1
              rw [← e.2]; omega

theorem next_length (s : List Char) (w r : List Char) (h : next s = some (w, r)) : r.length < s.length := by
  unfold next at h
  have hs := start_length s
  split at h
  · cases h
  · rename_i c r' e
    have := (word_length _ _ _ _ (Nat.le_refl _) h).2 (by simp)
    rw [e] at hs; omega

/-- commands.rs:246-248 `full_args`: all words -/
def words (s : List Char) : List (List Char) :=
  match h : next s with
  | none => []
  | some (w, r) => w :: words r
termination_by s.length
decreasing_by exact next_length s w r h

/-! ## Specification: how words are written, as in a shell but without expansions -/

/-- Inside double quotes: the value, then the text. -/
inductive InDouble : List Char → List Char → Prop
  | nil : InDouble [] []
  | plain {w t : List Char} (c : Char) : c ≠ '"' → c ≠ '\\' → InDouble w t → InDouble (c :: w) (c :: t)
  | escaped {w t : List Char} (c : Char) : c ∈ ['$', '`', '"', '\\'] → InDouble w t → InDouble (c :: w) ('\\' :: c :: t)
  | newline {w t : List Char} : InDouble w t → InDouble w ('\\' :: '\n' :: t)
  | other {w t : List Char} (c : Char) : c ∉ ['$', '`', '"', '\\', '\n'] → InDouble w t →
      InDouble ('\\' :: c :: w) ('\\' :: c :: t)

/-- Rest of a word: the value, then the text. -/
inductive Pieces : List Char → List Char → Prop
  | nil : Pieces [] []
  | plain {w t : List Char} (c : Char) : c ∉ ['"', '\'', '\\', ' ', '\t', '\n'] → Pieces w t → Pieces (c :: w) (c :: t)
  | escaped {w t : List Char} (c : Char) : c ≠ '\n' → Pieces w t → Pieces (c :: w) ('\\' :: c :: t)
  | continued {w t : List Char} : Pieces w t → Pieces w ('\\' :: '\n' :: t)
  | single {w t : List Char} (q : List Char) : '\'' ∉ q → Pieces w t → Pieces (q ++ w) ('\'' :: (q ++ '\'' :: t))
  | double {w t v q : List Char} : InDouble v q → Pieces w t → Pieces (v ++ w) ('"' :: (q ++ '"' :: t))

/-- Text before a word: blanks and whole comments. -/
inductive Gap : List Char → Prop
  | nil : Gap []
  | blank {t : List Char} (c : Char) : c ∈ [' ', '\t', '\n'] → Gap t → Gap (c :: t)
  | comment {t : List Char} (q : List Char) : '\n' ∉ q → Gap t → Gap ('#' :: (q ++ '\n' :: t))

/-- A command line: its words, then the text. -/
inductive Line : List (List Char) → List Char → Prop
  | nil {g : List Char} : Gap g → Line [] g
  | comment {g : List Char} (q : List Char) : Gap g → '\n' ∉ q → Line [] (g ++ '#' :: q)
  | last {g w t : List Char} : Gap g → Pieces w t → t ≠ [] → t.head? ≠ some '#' → Line [w] (g ++ t)
  | cons {g w t r : List Char} {ws : List (List Char)} (c : Char) : Gap g → Pieces w t → t ≠ [] → t.head? ≠ some '#' →
      c ∈ [' ', '\t', '\n'] → Line ws r → Line (w :: ws) (g ++ t ++ c :: r)

/-! ## Reading what was written -/

theorem single_run (q : List Char) (hq : '\'' ∉ q) (t : List Char) : single (q ++ '\'' :: t) = some (q, t) := by
  induction q with
  | nil => simp [single]
  | cons c q ih =>
    simp only [List.mem_cons, not_or] at hq
    simp only [List.cons_append, single]
    rw [if_neg (fun e => hq.1 e.symm), ih hq.2]; rfl

theorem double_run {v q : List Char} (h : InDouble v q) (t : List Char) : double (q ++ '"' :: t) = some (v, t) := by
  induction h with
  | nil => rw [List.nil_append, double] <;> simp
  | plain c h1 h2 _ ih =>
    rw [List.cons_append, double, if_neg h1, ih]; rfl
    · intro e; exact absurd e h2
    · intro c' r' e; exact absurd e h2
  | escaped c hc _ ih =>
    simp only [List.mem_cons, List.not_mem_nil, or_false] at hc
    rw [List.cons_append, List.cons_append, double, ih]; simp [hc]
  | newline _ ih => rw [List.cons_append, List.cons_append, double, ih]; simp
  | other c hc _ ih =>
    simp only [List.mem_cons, List.not_mem_nil, or_false, not_or] at hc
    rw [List.cons_append, List.cons_append, double, ih]; simp [hc]

theorem blank_iff (c : Char) : blank c = true ↔ c ∈ [' ', '\t', '\n'] := by
  simp [blank, or_assoc]

/-- What may follow a word. -/
def AfterWord (t r : List Char) : Prop := (t = [] ∧ r = []) ∨ ∃ c, c ∈ [' ', '\t', '\n'] ∧ t = c :: r

theorem word_end {t r : List Char} (h : AfterWord t r) : word t = some ([], r) := by
  rcases h with ⟨rfl, rfl⟩ | ⟨c, hc, rfl⟩
  · exact word_nil
  · have hb := (blank_iff c).2 hc
    simp only [List.mem_cons, List.not_mem_nil, or_false] at hc
    rw [word_other c r (by rintro rfl; simp at hc) (by rintro rfl; simp at hc) (by rintro rfl; simp at hc), if_pos hb]

theorem word_plain (c : Char) (hc : c ∉ ['"', '\'', '\\', ' ', '\t', '\n']) (r : List Char) :
    word (c :: r) = (word r).map fun p => (c :: p.1, p.2) := by
  simp only [List.mem_cons, List.not_mem_nil, or_false, not_or] at hc
  rw [word_other c r hc.2.2.1 hc.1 hc.2.1, if_neg]
  simp [blank, hc]

theorem word_run {w t : List Char} (h : Pieces w t) {e r : List Char} (he : AfterWord e r) :
    word (t ++ e) = some (w, r) := by
  induction h with
  | nil => simpa using word_end he
  | plain c hc _ ih => rw [List.cons_append, word_plain c hc, ih]; rfl
  | escaped c hc _ ih => rw [List.cons_append, List.cons_append, word_escape, ih]; simp [hc]
  | continued _ ih => rw [List.cons_append, List.cons_append, word_escape, ih]; simp
  | single q hq _ ih =>
    rw [List.cons_append, List.append_assoc, List.cons_append, word_single, single_run q hq]; simp only [ih]; rfl
  | double hd _ ih =>
    rw [List.cons_append, List.append_assoc, List.cons_append, word_double, double_run hd]; simp only [ih]; rfl

theorem comment_run (q : List Char) (hq : '\n' ∉ q) (t : List Char) : comment (q ++ '\n' :: t) = t := by
  induction q with
  | nil => simp [comment]
  | cons c q ih =>
    simp only [List.mem_cons, not_or] at hq
    simp only [List.cons_append, comment]
    rw [if_neg (fun e => hq.1 e.symm), ih hq.2]

theorem comment_all (q : List Char) (hq : '\n' ∉ q) : comment q = [] := by
  induction q with
  | nil => rfl
  | cons c q ih =>
    simp only [List.mem_cons, not_or] at hq
    simp only [comment]
    rw [if_neg (fun e => hq.1 e.symm), ih hq.2]

theorem start_run {g : List Char} (h : Gap g) (t : List Char) : start (g ++ t) = start t := by
  induction h with
  | nil => rfl
  | blank c hc _ ih => rw [List.cons_append, start, if_pos ((blank_iff c).2 hc), ih]
  | comment q hq _ ih =>
    rw [List.cons_append, start, if_neg (by decide), if_pos rfl, List.append_assoc, List.cons_append, comment_run q hq, ih]

theorem start_word {w t : List Char} (h : Pieces w t) (hne : t ≠ []) (hh : t.head? ≠ some '#') (e : List Char) :
    start (t ++ e) = t ++ e ∧ ∃ c r, t ++ e = c :: r := by
  have key : ∀ c r, blank c = false → c ≠ '#' → start (c :: r) = c :: r := by
    intro c r h1 h2; rw [start]; simp [h1, h2]
  cases h with
  | nil => exact absurd rfl hne
  | plain c hc _ =>
    simp only [List.mem_cons, List.not_mem_nil, or_false, not_or] at hc
    refine ⟨key _ _ (by simp [blank, hc]) (by simpa using hh), _, _, rfl⟩
  | escaped c hc _ => exact ⟨key _ _ (by decide) (by decide), _, _, rfl⟩
  | continued _ => exact ⟨key _ _ (by decide) (by decide), _, _, rfl⟩
  | single q hq _ => exact ⟨key _ _ (by decide) (by decide), _, _, rfl⟩
  | double hd _ => exact ⟨key _ _ (by decide) (by decide), _, _, rfl⟩

theorem words_none {s : List Char} (h : next s = none) : words s = [] := by
  rw [words]; split <;> simp_all

theorem words_some {s w r : List Char} (h : next s = some (w, r)) : words s = w :: words r := by
  rw [words]; split <;> simp_all

theorem next_word {g w t e r : List Char} (hg : Gap g) (h : Pieces w t) (hne : t ≠ []) (hh : t.head? ≠ some '#')
    (he : AfterWord e r) : next (g ++ (t ++ e)) = some (w, r) := by
  obtain ⟨h1, c, r', h2⟩ := start_word h hne hh e
  unfold next
  rw [start_run hg, h1, h2]
  simp only
  rw [← h2, word_run h he]

/-- **C75.** Every command line is read as the words it spells. -/
theorem c75_words {ws : List (List Char)} {t : List Char} (h : Line ws t) : words t = ws := by
  induction h with
  | nil hg =>
    apply words_none
    unfold next
    have := start_run hg []
    rw [List.append_nil] at this
    rw [this, start]
  | comment q hg hq =>
    apply words_none
    unfold next
    rw [start_run hg, start, if_neg (by decide), if_pos rfl, comment_all q hq, start]
  | last hg hp hne hh =>
    have := next_word hg hp hne hh (.inl ⟨rfl, rfl⟩)
    rw [List.append_nil] at this
    rw [words_some this]
    rw [words_none (by rw [next, start])]
  | cons c hg hp hne hh hc _ ih =>
    rw [List.append_assoc, words_some (next_word hg hp hne hh (.inr ⟨c, hc, rfl⟩)), ih]

/-! ## Every text -/

/-- An escape or a quotation that is not finished. -/
inductive Unclosed : List Char → Prop
  | escape : Unclosed ['\\']
  | single (q : List Char) : '\'' ∉ q → Unclosed ('\'' :: q)
  | double {v q : List Char} : InDouble v q → Unclosed ('"' :: q)
  | doubleEscape {v q : List Char} : InDouble v q → Unclosed ('"' :: (q ++ ['\\']))

/-- A command line whose last word is not finished: the words before it, then the text. -/
inductive Broken : List (List Char) → List Char → Prop
  | here {g w t u : List Char} : Gap g → Pieces w t → Unclosed u → (t ++ u).head? ≠ some '#' → Broken [] (g ++ (t ++ u))
  | cons {g w t r : List Char} {ws : List (List Char)} (c : Char) : Gap g → Pieces w t → t ≠ [] → t.head? ≠ some '#' →
      c ∈ [' ', '\t', '\n'] → Broken ws r → Broken (w :: ws) (g ++ t ++ c :: r)

theorem single_none (q : List Char) (hq : '\'' ∉ q) : single q = none := by
  induction q with
  | nil => rfl
  | cons c q ih =>
    simp only [List.mem_cons, not_or] at hq
    simp only [single]
    rw [if_neg (fun e => hq.1 e.symm), ih hq.2]; rfl

theorem double_none {v q : List Char} (h : InDouble v q) : double q = none ∧ double (q ++ ['\\']) = none := by
  induction h with
  | nil => exact ⟨by rw [double], by rw [List.nil_append, double]⟩
  | plain c h1 h2 _ ih =>
    constructor
    · rw [double, if_neg h1, ih.1]; rfl
      · intro e; exact absurd e h2
      · intro c' r' e; exact absurd e h2
    · rw [List.cons_append, double, if_neg h1, ih.2]; rfl
      · intro e; exact absurd e h2
      · intro c' r' e; exact absurd e h2
  | escaped c hc _ ih => exact ⟨by rw [double, ih.1]; rfl, by rw [List.cons_append, List.cons_append, double, ih.2]; rfl⟩
  | newline _ ih => exact ⟨by rw [double, ih.1]; rfl, by rw [List.cons_append, List.cons_append, double, ih.2]; rfl⟩
  | other c hc _ ih => exact ⟨by rw [double, ih.1]; rfl, by rw [List.cons_append, List.cons_append, double, ih.2]; rfl⟩

theorem word_unclosed {u : List Char} (h : Unclosed u) : word u = none := by
  cases h with
  | escape => exact word_bad
  | single q hq => rw [word_single, single_none q hq]
  | double hd => rw [word_double, (double_none hd).1]
  | doubleEscape hd => rw [word_double, (double_none hd).2]

theorem word_broken {w t u : List Char} (h : Pieces w t) (hu : Unclosed u) : word (t ++ u) = none := by
  induction h with
  | nil => simpa using word_unclosed hu
  | plain c hc _ ih => rw [List.cons_append, word_plain c hc, ih]; rfl
  | escaped c hc _ ih => rw [List.cons_append, List.cons_append, word_escape, ih]; rfl
  | continued _ ih => rw [List.cons_append, List.cons_append, word_escape, ih]; rfl
  | single q hq _ ih =>
    rw [List.cons_append, List.append_assoc, List.cons_append, word_single, single_run q hq]; simp only [ih]; rfl
  | double hd _ ih =>
    rw [List.cons_append, List.append_assoc, List.cons_append, word_double, double_run hd]; simp only [ih]; rfl

/-- **C75.** A command line that ends within a quotation or an escape is read as the words before it; the unfinished word
is dropped and nothing tells. -/
theorem c75_unclosed {ws : List (List Char)} {t : List Char} (h : Broken ws t) : words t = ws := by
  induction h with
  | here hg hp hu hh =>
    rename_i g w t u
    apply words_none
    unfold next
    rw [start_run hg]
    have hs : start (t ++ u) = t ++ u := by
      cases hp with
      | nil =>
        rw [List.nil_append]
        cases hu <;> rw [start] <;> simp [blank]
      | plain c hc _ =>
        simp only [List.mem_cons, List.not_mem_nil, or_false, not_or] at hc
        rw [List.cons_append, start]
        simp at hh
        simp [blank, hc, hh]
      | escaped c hc _ => rw [List.cons_append, start]; simp [blank]
      | continued _ => rw [List.cons_append, start]; simp [blank]
      | single q hq _ => rw [List.cons_append, start]; simp [blank]
      | double hd _ => rw [List.cons_append, start]; simp [blank]
    rw [hs]
    split
    · rfl
    · rename_i e; rw [← e, word_broken hp hu]
  | cons c hg hp hne hh hc _ ih =>
    rw [List.append_assoc, words_some (next_word hg hp hne hh (.inr ⟨c, hc, rfl⟩)), ih]

theorem single_inv (s : List Char) : '\'' ∉ s ∨ ∃ q t, '\'' ∉ q ∧ s = q ++ '\'' :: t := by
  induction s with
  | nil => exact .inl (by simp)
  | cons c s ih =>
    by_cases hc : c = '\''
    · exact .inr ⟨[], s, by simp, by simp [hc]⟩
    · rcases ih with h | ⟨q, t, h1, h2⟩
      · exact .inl (by simp only [List.mem_cons, not_or]; exact ⟨fun e => hc e.symm, h⟩)
      · exact .inr ⟨c :: q, t, by simp only [List.mem_cons, not_or]; exact ⟨fun e => hc e.symm, h1⟩, by simp [h2]⟩

theorem newline_inv (s : List Char) : '\n' ∉ s ∨ ∃ q t, '\n' ∉ q ∧ s = q ++ '\n' :: t := by
  induction s with
  | nil => exact .inl (by simp)
  | cons c s ih =>
    by_cases hc : c = '\n'
    · exact .inr ⟨[], s, by simp, by simp [hc]⟩
    · rcases ih with h | ⟨q, t, h1, h2⟩
      · exact .inl (by simp only [List.mem_cons, not_or]; exact ⟨fun e => hc e.symm, h⟩)
      · exact .inr ⟨c :: q, t, by simp only [List.mem_cons, not_or]; exact ⟨fun e => hc e.symm, h1⟩, by simp [h2]⟩

theorem double_inv (n : Nat) : ∀ s : List Char, s.length ≤ n →
    (∃ v q t, InDouble v q ∧ s = q ++ '"' :: t) ∨ ∃ v q, InDouble v q ∧ (s = q ∨ s = q ++ ['\\']) := by
  induction n with
  | zero =>
    intro s hs
    have : s = [] := List.length_eq_zero_iff.1 (by omega)
    exact .inr ⟨[], [], .nil, .inl this⟩
  | succ n ih =>
    intro s hs
    match s with
    | [] => exact .inr ⟨[], [], .nil, .inl rfl⟩
    | c :: s =>
      simp only [List.length_cons] at hs
      by_cases h1 : c = '"'
      · exact .inl ⟨[], [], s, .nil, by simp [h1]⟩
      · by_cases h2 : c = '\\'
        · subst h2
          match s with
          | [] => exact .inr ⟨[], [], .nil, .inr rfl⟩
          | c' :: s =>
            simp only [List.length_cons] at hs
            have hb : ∀ v q, InDouble v q → ∃ v', InDouble v' ('\\' :: c' :: q) := by
              intro v q h
              by_cases e1 : c' ∈ ['$', '`', '"', '\\']
              · exact ⟨_, .escaped c' e1 h⟩
              · by_cases e2 : c' = '\n'
                · subst e2; exact ⟨_, .newline h⟩
                · refine ⟨_, .other c' ?_ h⟩
                  simp only [List.mem_cons, List.not_mem_nil, or_false, not_or] at e1 ⊢
                  exact ⟨e1.1, e1.2.1, e1.2.2.1, e1.2.2.2, e2⟩
            rcases ih s (by omega) with ⟨v, q, t, h, rfl⟩ | ⟨v, q, h, rfl | rfl⟩
            · obtain ⟨v', h'⟩ := hb v q h; exact .inl ⟨v', _, t, h', rfl⟩
            · obtain ⟨v', h'⟩ := hb v _ h; exact .inr ⟨v', _, h', .inl rfl⟩
            · obtain ⟨v', h'⟩ := hb v q h; exact .inr ⟨v', _, h', .inr rfl⟩
        · rcases ih s (by omega) with ⟨v, q, t, h, rfl⟩ | ⟨v, q, h, rfl | rfl⟩
          · exact .inl ⟨_, _, t, .plain c h1 h2 h, rfl⟩
          · exact .inr ⟨_, _, .plain c h1 h2 h, .inl rfl⟩
          · exact .inr ⟨_, _, .plain c h1 h2 h, .inr rfl⟩

theorem word_inv (n : Nat) : ∀ s : List Char, s.length ≤ n →
    (∃ w t e r, s = t ++ e ∧ Pieces w t ∧ AfterWord e r) ∨ ∃ w t u, s = t ++ u ∧ Pieces w t ∧ Unclosed u := by
  induction n with
  | zero =>
    intro s hs
    have : s = [] := List.length_eq_zero_iff.1 (by omega)
    exact .inl ⟨[], [], [], [], by simp [this], .nil, .inl ⟨rfl, rfl⟩⟩
  | succ n ih =>
    intro s hs
    match s with
    | [] => exact .inl ⟨[], [], [], [], rfl, .nil, .inl ⟨rfl, rfl⟩⟩
    | c :: s =>
      simp only [List.length_cons] at hs
      -- extending the text of a word in front
      have ext : ∀ (p s' : List Char), c :: s = p ++ s' → s'.length ≤ n →
          (∀ w t, Pieces w t → ∃ w', Pieces w' (p ++ t)) →
          (∃ w t e r, c :: s = t ++ e ∧ Pieces w t ∧ AfterWord e r) ∨ ∃ w t u, c :: s = t ++ u ∧ Pieces w t ∧ Unclosed u := by
        intro p s' hp hl hx
        rcases ih s' hl with ⟨w, t, e, r, rfl, h1, h2⟩ | ⟨w, t, u, rfl, h1, h2⟩
        · obtain ⟨w', h'⟩ := hx w t h1
          exact .inl ⟨w', p ++ t, e, r, by simp [hp], h', h2⟩
        · obtain ⟨w', h'⟩ := hx w t h1
          exact .inr ⟨w', p ++ t, u, by simp [hp], h', h2⟩
      by_cases h1 : c = '\\'
      · subst h1
        match s with
        | [] => exact .inr ⟨[], [], _, rfl, .nil, .escape⟩
        | c' :: s =>
          simp only [List.length_cons] at hs
          refine ext ['\\', c'] s rfl (by omega) fun w t h => ?_
          by_cases e : c' = '\n'
          · subst e; exact ⟨_, .continued h⟩
          · exact ⟨_, .escaped c' e h⟩
      · by_cases h2 : c = '"'
        · subst h2
          rcases double_inv _ s (Nat.le_refl _) with ⟨v, q, t, hd, rfl⟩ | ⟨v, q, hd, rfl | rfl⟩
          · refine ext ('"' :: (q ++ ['"'])) t (by simp) (by simp at hs; omega) fun w t h => ⟨v ++ w, ?_⟩
            have := Pieces.double hd h
            simpa using this
          · exact .inr ⟨[], [], _, rfl, .nil, .double hd⟩
          · exact .inr ⟨[], [], _, rfl, .nil, .doubleEscape hd⟩
        · by_cases h3 : c = '\''
          · subst h3
            rcases single_inv s with hq | ⟨q, t, hq, rfl⟩
            · exact .inr ⟨[], [], _, rfl, .nil, .single s hq⟩
            · refine ext ('\'' :: (q ++ ['\''])) t (by simp) (by simp at hs; omega) fun w t h => ⟨q ++ w, ?_⟩
              have := Pieces.single q hq h
              simpa using this
          · by_cases h4 : c ∈ [' ', '\t', '\n']
            · exact .inl ⟨[], [], c :: s, s, rfl, .nil, .inr ⟨c, h4, rfl⟩⟩
            · refine ext [c] s rfl (by omega) fun w t h => ⟨_, .plain c ?_ h⟩
              simp only [List.mem_cons, List.not_mem_nil, or_false, not_or] at h4 ⊢
              exact ⟨h2, h3, h1, h4.1, h4.2.1, h4.2.2⟩

theorem start_inv (n : Nat) : ∀ s : List Char, s.length ≤ n → ∃ g, Gap g ∧
    (s = g ∨ (∃ q, '\n' ∉ q ∧ s = g ++ '#' :: q) ∨
      ∃ c r, s = g ++ c :: r ∧ c ∉ [' ', '\t', '\n'] ∧ c ≠ '#') := by
  induction n with
  | zero =>
    intro s hs
    have : s = [] := List.length_eq_zero_iff.1 (by omega)
    exact ⟨[], .nil, .inl this⟩
  | succ n ih =>
    intro s hs
    match s with
    | [] => exact ⟨[], .nil, .inl rfl⟩
    | c :: s =>
      simp only [List.length_cons] at hs
      have ext : ∀ (p s' : List Char), c :: s = p ++ s' → s'.length ≤ n → (∀ g, Gap g → Gap (p ++ g)) → ∃ g, Gap g ∧
          (c :: s = g ∨ (∃ q, '\n' ∉ q ∧ c :: s = g ++ '#' :: q) ∨
            ∃ c' r, c :: s = g ++ c' :: r ∧ c' ∉ [' ', '\t', '\n'] ∧ c' ≠ '#') := by
        intro p s' hp hl hx
        obtain ⟨g, hg, rfl | ⟨q, hq, rfl⟩ | ⟨c', r, rfl, h⟩⟩ := ih s' hl
        · exact ⟨_, hx _ hg, .inl hp⟩
        · exact ⟨_, hx _ hg, .inr (.inl ⟨q, hq, by simp [hp]⟩)⟩
        · exact ⟨_, hx _ hg, .inr (.inr ⟨c', r, by simp [hp], h⟩)⟩
      by_cases h1 : c ∈ [' ', '\t', '\n']
      · exact ext [c] s rfl (by omega) fun g hg => .blank c h1 hg
      · by_cases h2 : c = '#'
        · subst h2
          rcases newline_inv s with hq | ⟨q, t, hq, rfl⟩
          · exact ⟨[], .nil, .inr (.inl ⟨s, hq, rfl⟩)⟩
          · refine ext ('#' :: (q ++ ['\n'])) t (by simp) (by simp at hs; omega) fun g hg => ?_
            have := Gap.comment q hq hg
            simpa using this
        · exact ⟨[], .nil, .inr (.inr ⟨c, s, rfl, h1, h2⟩)⟩

theorem line_or_broken (n : Nat) : ∀ s : List Char, s.length ≤ n → ∃ ws, Line ws s ∨ Broken ws s := by
  induction n with
  | zero =>
    intro s hs
    have : s = [] := List.length_eq_zero_iff.1 (by omega)
    exact ⟨[], .inl (by rw [this]; exact .nil .nil)⟩
  | succ n ih =>
    intro s hs
    obtain ⟨g, hg, rfl | ⟨q, hq, rfl⟩ | ⟨c, r, rfl, hb, hc⟩⟩ := start_inv _ s (Nat.le_refl _)
    · exact ⟨[], .inl (.nil hg)⟩
    · exact ⟨[], .inl (.comment q hg hq)⟩
    · rcases word_inv _ (c :: r) (Nat.le_refl _) with ⟨w, t, e, r', h1, h2, h3⟩ | ⟨w, t, u, h1, h2, h3⟩
      · have hne : t ≠ [] := by
          rintro rfl
          rcases h3 with ⟨rfl, -⟩ | ⟨c', hc', rfl⟩
          · cases h1
          · simp only [List.nil_append, List.cons.injEq] at h1; exact hb (h1.1 ▸ hc')
        have hh : t.head? ≠ some '#' := by
          cases t with
          | nil => simp
          | cons c' t => simp only [List.cons_append, List.cons.injEq] at h1; simp only [List.head?_cons]; rw [← h1.1]; simpa using hc
        rcases h3 with ⟨rfl, rfl⟩ | ⟨c', hc', rfl⟩
        · rw [h1, List.append_nil]
          exact ⟨_, .inl (.last hg h2 hne hh)⟩
        · have hl : r'.length ≤ n := by
            have := congrArg List.length h1
            simp only [List.length_append, List.length_cons] at this hs
            omega
          obtain ⟨ws, h | h⟩ := ih r' hl
          · exact ⟨_, .inl (by rw [h1, ← List.append_assoc]; exact .cons c' hg h2 hne hh hc' h)⟩
          · exact ⟨_, .inr (by rw [h1, ← List.append_assoc]; exact .cons c' hg h2 hne hh hc' h)⟩
      · rw [h1]
        exact ⟨_, .inr (.here hg h2 h3 (by rw [← h1]; simpa using hc))⟩

/-- **C75.** There is nothing else: every text is a command line or one that is cut within a quotation, and is read as such. -/
theorem c75_every_text (t : List Char) : Line (words t) t ∨ Broken (words t) t := by
  obtain ⟨ws, h | h⟩ := line_or_broken _ t (Nat.le_refl _)
  · rw [c75_words h]; exact .inl h
  · rw [c75_unclosed h]; exact .inr h

/-- Single-quoted form of a word. -/
def quote (w : List Char) : List Char := '\'' :: (w.flatMap fun c => if c = '\'' then ['\'', '\\', '\'', '\''] else [c]) ++ ['\'']

/-- A command line for these words. -/
def quoteAll : List (List Char) → List Char
  | [] => []
  | w :: ws => quote w ++ ' ' :: quoteAll ws

theorem quote_pieces (w : List Char) : ∀ p : List Char, '\'' ∉ p →
    Pieces (p ++ w) ('\'' :: (p ++ (w.flatMap fun c => if c = '\'' then ['\'', '\\', '\'', '\''] else [c]) ++ ['\''])) := by
  induction w with
  | nil =>
    intro p hp
    have := Pieces.single p hp .nil
    simpa using this
  | cons c w ih =>
    intro p hp
    by_cases hc : c = '\''
    · subst hc
      have h0 := ih [] (by simp)
      have h1 := Pieces.single p hp (.escaped '\'' (by decide) h0)
      simpa using h1
    · have := ih (p ++ [c]) (by simp only [List.mem_append, List.mem_singleton, not_or]; exact ⟨hp, fun e => hc e.symm⟩)
      simpa [hc] using this

/-- **C75.** Whatever the words (blanks, quotes, newlines, empty words), quoting them in the usual way gives them back. -/
theorem c75_quoted (ws : List (List Char)) : words (quoteAll ws) = ws := by
  apply c75_words
  induction ws with
  | nil => exact .nil .nil
  | cons w ws ih =>
    have hp := quote_pieces w [] (by simp)
    have := Line.cons (g := []) ' ' .nil hp (by simp) (by simp) (by simp) ih
    simpa [quoteAll, quote] using this

/-! ## Examples -/

example : words "c++ -DX='a b' \"-I$\\\"x\" # comment".toList =
    ["c++".toList, "-DX=a b".toList, "-I$\"x".toList] := by
  decide +kernel

/-- A missing quote: the rest of the command, here the output and the source, is lost. -/
example : words "c++ -DX=\"a -o a.o a.cpp".toList = ["c++".toList] := by decide +kernel

end Verif.Build.Shlex
