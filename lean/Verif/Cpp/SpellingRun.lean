/-
C63: running the parsers on spelled texts, leaf by leaf.
-/
import Verif.Cpp.Spelling
import Verif.Cpp.GrammarFacts

set_option autoImplicit false
set_option linter.unusedVariables false
set_option linter.unusedSimpArgs false

namespace Verif.Cpp

/-! ## Combinators -/

theorem bind_err {α β : Type} {p : P α} {f : α → P β} {s : Input} (h : p s = .err) :
    (p >>= f) s = .err := by rw [P.bind_run, h]

theorem or_l {α : Type} {p q : P α} {s r : Input} {a : α} (h : p s = .ok r a) : P.or p q s = .ok r a := by
  rw [P.or, h]

theorem or_r {α : Type} {p q : P α} {s : Input} {x : Res α} (h : p s = .err) (h' : q s = x) :
    P.or p q s = x := by rw [P.or, h]; exact h'

theorem or_err {α : Type} {p q : P α} {s : Input} (h : p s = .err) (h' : q s = .err) :
    P.or p q s = .err := or_r h h'

theorem opt_some {α : Type} {p : P α} {s r : Input} {a : α} (h : p s = .ok r a) :
    P.opt p s = .ok r (some a) := by rw [P.opt, h]

theorem opt_none {α : Type} {p : P α} {s : Input} (h : p s = .err) : P.opt p s = .ok s none := by
  rw [P.opt, h]

theorem verify_run {α : Type} {p : P α} {f : α → Bool} {s r : Input} {a : α} (h : p s = .ok r a)
    (hf : f a = true) : P.verify p f s = .ok r a := bind_step h (by rw [if_pos hf]; rfl)

theorem verify_err {α : Type} {p : P α} {f : α → Bool} {s r : Input} {a : α} (h : p s = .ok r a)
    (hf : f a = false) : P.verify p f s = .err := bind_step h (by rw [if_neg (by simp [hf])]; rfl)

theorem verify_err' {α : Type} {p : P α} {f : α → Bool} {s : Input} (h : p s = .err) :
    P.verify p f s = .err := bind_err h

theorem mapOpt_run {α β : Type} {p : P α} {f : α → Option β} {s r : Input} {a : α} {b : β}
    (h : p s = .ok r a) (hf : f a = some b) : P.mapOpt p f s = .ok r b := bind_step h (by rw [hf]; rfl)

theorem mapOpt_err {α β : Type} {p : P α} {f : α → Option β} {s r : Input} {a : α}
    (h : p s = .ok r a) (hf : f a = none) : P.mapOpt p f s = .err := bind_step h (by rw [hf]; rfl)

theorem mapOpt_err' {α β : Type} {p : P α} {f : α → Option β} {s : Input} (h : p s = .err) :
    P.mapOpt p f s = .err := bind_err h

theorem many0_step {α : Type} {p : P α} {s r r' : Input} {a : α} {as : List α} (h : p s = .ok r a)
    (hl : r.length < s.length) (h' : P.many0 p r = .ok r' as) : P.many0 p s = .ok r' (a :: as) := by
  rw [P.many0_run, h]
  simp only [hl, if_true, h']

@[simp] theorem char_run (c : Char) (r : Input) : P.char c (c :: r) = .ok r () := by simp [P.char]

theorem char_err {c : Char} {s : Input} (h : s.head? ≠ some c) : P.char c s = .err := by
  cases s with
  | nil => rfl
  | cons d r => simp only [P.char]; rw [if_neg]; rintro rfl; exact h rfl

theorem tag_run (w : String) (r : Input) : P.tag w (w.toList ++ r) = .ok r () := by
  rw [P.tag, tagL_append]

/-- A tag fails on a text that does not start with it. -/
theorem tag_err {w : String} {s : Input} (h : ∀ r, s ≠ w.toList ++ r) : P.tag w s = .err := by
  rcases tagL_cases w.toList s with ⟨r, hr⟩ | hr
  · exact absurd (tagL_ok hr) (h r)
  · exact hr

theorem tag_err_head {w : String} {s : Input} {c : Char} {cs : List Char} (hw : w.toList = c :: cs)
    (h : s.head? ≠ some c) : P.tag w s = .err := by
  apply tag_err
  rintro r rfl
  rw [hw] at h
  exact h rfl

/-! ## Blanks -/

/-- The text does not start with a blank. -/
def NoSp (s : Input) : Prop := ∀ c r, s = c :: r → P.isSpace c = false

theorem Blank.nil : Blank [] := by simp [Blank]

theorem Blank.tail {c : Char} {b : List Char} (h : Blank (c :: b)) : Blank b := fun d hd => h d (by simp [hd])

theorem Blank.append {a b : List Char} (ha : Blank a) (hb : Blank b) : Blank (a ++ b) := by
  intro c hc
  rcases List.mem_append.1 hc with h | h
  · exact ha c h
  · exact hb c h

theorem space0_run {b r : Input} (hb : Blank b) (hr : NoSp r) : P.space0 (b ++ r) = .ok r () := by
  have h := takeWhile_append_of_end (f := P.isSpace) (w := b) (t := r) hb hr
  rw [P.space0, P.bind_run, P.takeWhile]
  simp only [h.2]
  rfl

theorem space0_id {r : Input} (hr : NoSp r) : P.space0 r = .ok r () := space0_run Blank.nil hr

theorem space1_run {b r : Input} (hb : Blank b) (hne : b ≠ []) (hr : NoSp r) : P.space1 (b ++ r) = .ok r () := by
  have h := takeWhile_append_of_end (f := P.isSpace) (w := b) (t := r) hb hr
  rw [P.space1]
  refine bind_step (r := r) (a := b) ?_ rfl
  rw [P.takeWhile1]
  refine verify_run ?_ ?_
  · rw [P.takeWhile, h.1, h.2]
  · cases b with
    | nil => exact absurd rfl hne
    | cons c t => rfl

theorem space1_err {r : Input} (hr : NoSp r) : P.space1 r = .err := by
  have h := takeWhile_append_of_end (f := P.isSpace) (w := []) (t := r) (by simp) hr
  rw [P.space1]
  refine bind_err ?_
  rw [P.takeWhile1]
  refine verify_err (r := r) (a := []) ?_ rfl
  rw [P.takeWhile]
  simp only [List.nil_append] at h
  rw [h.1, h.2]

theorem NoSp.cons {c : Char} {r : Input} (h : P.isSpace c = false) : NoSp (c :: r) := by
  intro d t e; cases e; exact h

theorem NoSp.nil : NoSp [] := by intro d t e; cases e

theorem NoSp.ident {c : Char} {r : Input} (h : isIdCont c = true) : NoSp (c :: r) := by
  apply NoSp.cons
  cases hs : P.isSpace c with
  | false => rfl
  | true => rw [space_not_idcont c hs] at h; cases h

theorem spaced_run {α : Type} {p : P α} {s b r : Input} {a : α} (h : p s = .ok (b ++ r) a)
    (hb : Blank b) (hr : NoSp r) : spaced p s = .ok r a :=
  bind_step h (bind_step (space0_run hb hr) rfl)

theorem spaced_err {α : Type} {p : P α} {s : Input} (h : p s = .err) : spaced p s = .err := bind_err h

theorem charSp_run {c : Char} {b r : Input} (hb : Blank b) (hr : NoSp r) :
    P.charSp c (c :: (b ++ r)) = .ok r () := bind_step (char_run c _) (space0_run hb hr)

theorem charSp_err {c : Char} {s : Input} (h : s.head? ≠ some c) : P.charSp c s = .err :=
  bind_err (char_err h)

theorem spChar_run {c : Char} {b r : Input} (hb : Blank b) (hc : P.isSpace c = false) :
    P.spChar c (b ++ c :: r) = .ok r () := bind_step (space0_run hb (NoSp.cons hc)) (char_run c r)

theorem spChar_err {c : Char} {b r : Input} (hb : Blank b) (hr : NoSp r) (hc : r.head? ≠ some c) :
    P.spChar c (b ++ r) = .err := bind_step (space0_run hb hr) (char_err hc)

theorem spCharSp_run {c : Char} {b b' r : Input} (hb : Blank b) (hc : P.isSpace c = false)
    (hb' : Blank b') (hr : NoSp r) : P.spCharSp c (b ++ c :: (b' ++ r)) = .ok r () :=
  bind_step (space0_run hb (NoSp.cons hc)) (bind_step (char_run c _) (space0_run hb' hr))

/-! ## Words -/

/-- The word at the start of a text. -/
abbrev word (s : Input) : List Char := s.takeWhile isIdCont

theorem idHead_false {r : Input} (h : idHead r = false) : ∀ c t, r = c :: t → isIdCont c = false := by
  rintro c t rfl; exact h

theorem idHead_of_noword {r : Input} (h : ∀ c t, r = c :: t → isIdCont c = false) : idHead r = false := by
  cases r with
  | nil => rfl
  | cons c t => exact h c t rfl

theorem word_append {i r : Input} (hi : ∀ c ∈ i, isIdCont c = true) (hr : idHead r = false) :
    word (i ++ r) = i := (takeWhile_append_of_end hi (idHead_false hr)).1

theorem drop_append {i r : Input} (hi : ∀ c ∈ i, isIdCont c = true) (hr : idHead r = false) :
    (i ++ r).dropWhile isIdCont = r := (takeWhile_append_of_end hi (idHead_false hr)).2

theorem word_nil {s : Input} (h : idHead s = false) : word s = [] := by
  cases s with
  | nil => rfl
  | cons c t =>
    have : isIdCont c = false := h
    simp [word, this]

theorem identifier_run {i r : Input} (hi : IsIdent i) (hr : idHead r = false) :
    identifier (i ++ r) = .ok r i := by
  obtain ⟨h1, c, cs, rfl, h2⟩ := hi
  have h3 := takeWhile_append_of_end (f := isIdCont) (w := cs) (t := r)
    (fun d hd => h1 d (by simp [hd])) (idHead_false hr)
  simp only [List.cons_append, identifier, h2, if_true, h3.1, h3.2]

theorem idStart_cont {c : Char} (h : isIdStart c = true) : isIdCont c = true := by
  simp [isIdCont, h]

theorem identifier_err {s : Input} (h : ∀ c r, s = c :: r → isIdStart c = false) : identifier s = .err := by
  cases s with
  | nil => rfl
  | cons c r => simp [identifier, h c r rfl]

theorem keywords_err {α : Type} {table : List (String × α)} (ht : GoodTable table) {s : Input}
    (h : ∀ e ∈ table, word s ≠ e.1.toList) : keywords table s = .err := by
  rw [keywords_eq table ht.idc]
  have : table.find? (fun e => e.1.toList = s.takeWhile isIdCont) = none := by
    rw [List.find?_eq_none]
    intro e he
    simp only [decide_eq_true_eq]
    exact fun e' => h e he e'.symm
  rw [this]

theorem keyword_err {w : String} (hw : ∀ c ∈ w.toList, isIdCont c = true) {s : Input}
    (h : word s ≠ w.toList) : keyword w s = .err := by
  rw [keyword_eq hw, if_neg h]

theorem keyword_run {w : String} (hw : ∀ c ∈ w.toList, isIdCont c = true) {r : Input}
    (hr : idHead r = false) : keyword w (w.toList ++ r) = .ok r () := by
  rw [keyword_eq hw, if_pos (word_append hw hr), drop_append hw hr]

/-- A word followed by an opening parenthesis fails on a text that starts with another word. -/
theorem tag_word_err {w v : String} {c : Char} {cs : List Char} (hw : w.toList = v.toList ++ c :: cs)
    (hv : ∀ d ∈ v.toList, isIdCont d = true) (hc : isIdCont c = false) {s : Input}
    (h : word s ≠ v.toList) : P.tag w s = .err := by
  apply tag_err
  rintro r rfl
  apply h
  rw [hw, List.append_assoc]
  exact word_append hv (by simpa [idHead] using hc)

theorem elaboratedTable_good : GoodTable elaboratedTable := ⟨by decide +kernel, by decide +kernel, by decide +kernel⟩
theorem restrictTable_good : GoodTable restrictTable := ⟨by decide +kernel, by decide +kernel, by decide +kernel⟩

/-- Words followed by blanks are written before what follows them. -/
theorem words_written {words ws : List String} {t b r : Input} (h : Words ws t) (hne : ws = [] → b = [])
    (hm : ∀ w ∈ ws, w ∈ words) (hb : Blank b) (hr : NoSp r) (hi : idHead r = true → b ≠ [])
    (hn : NoWord words r) (hlong : ∀ w ∈ words, ∃ c cs, w.toList = c :: cs ∧ isIdCont c = true) :
    Written words ws (t ++ b ++ r) r := by
  induction h with
  | nil => rw [hne rfl]; exact .done r hn
  | one w =>
    refine .word w [] b r r (hm w (by simp)) hb hr (fun e => ?_) (.done r hn)
    intro c t' ht
    subst ht
    cases hc : isIdCont c with
    | false => rfl
    | true => exact absurd e (hi hc)
  | cons w b' w' ws t hb' hbne' hw ih =>
    have h1 := ih (by simp) (fun x hx => hm x (by simp [hx]))
    have h2 : w.toList ++ b' ++ t ++ b ++ r = w.toList ++ b' ++ (t ++ b ++ r) := by
      simp only [List.append_assoc]
    rw [h2]
    refine .word w (w' :: ws) b' _ r (hm w (by simp)) hb' ?_ (fun e => absurd e hbne') h1
    obtain ⟨c, cs, hc, hcc⟩ := hlong w' (hm w' (by simp))
    have h3 : ∃ u, t = w'.toList ++ u := by
      cases hw with
      | one => exact ⟨[], by simp⟩
      | cons _ b _ _ t' => exact ⟨b ++ t', by simp⟩
    obtain ⟨u, rfl⟩ := h3
    rw [hc]
    simp only [List.cons_append]
    exact NoSp.ident hcc

theorem cvWords_long : ∀ w ∈ cvWords, ∃ c cs, w.toList = c :: cs ∧ isIdCont c = true := by
  intro w hw
  simp only [cvWords, List.mem_cons, List.not_mem_nil, or_false] at hw
  rcases hw with rfl | rfl
  · exact ⟨'c', "onst".toList, by decide +kernel, by decide⟩
  · exact ⟨'v', "olatile".toList, by decide +kernel, by decide⟩

theorem legacyWords_long : ∀ w ∈ legacyWords, ∃ c cs, w.toList = c :: cs ∧ isIdCont c = true := by
  have h : ∀ w ∈ legacyWords, w.toList ≠ [] ∧ ∀ c ∈ w.toList, isIdCont c = true := by decide +kernel
  intro w hw
  obtain ⟨h1, h2⟩ := h w hw
  cases he : w.toList with
  | nil => exact absurd he h1
  | cons c cs => exact ⟨c, cs, rfl, h2 c (by simp [he])⟩

theorem words_nil_iff {ws : List String} {t : Input} (h : Words ws t) (hl : ∀ w ∈ ws, w.toList ≠ []) :
    ws = [] ↔ t = [] := by
  cases h with
  | nil => simp
  | one w => simp only [List.cons_ne_nil, false_iff]; exact hl w (by simp)
  | cons w b w' ws t _ hb _ =>
    simp only [List.cons_ne_nil, List.append_eq_nil_iff, false_iff]
    exact fun h => hb h.1.2

/-- Reading cv-qualifiers. -/
theorem cv_run {cv : CV} {t b r : Input} (h : CvText cv t) (hb : Blank b) (hne : t = [] → b = [])
    (hr : NoSp r) (hi : idHead r = true → b ≠ []) (hk : keywords cvTable r = .err) (hi' : t = [] → True) :
    parseCv (t ++ b ++ r) = .ok r cv := by
  obtain ⟨ws, hws, hw, rfl⟩ := h
  have hl : ∀ w ∈ ws, w.toList ≠ [] := by
    intro w hw
    obtain ⟨c, cs, h, -⟩ := cvWords_long w (hws w hw)
    rw [h]; simp
  by_cases ht : ws = []
  · subst ht
    have ht' := (words_nil_iff hw hl).1 rfl
    rw [hne ht', ht']
    exact cv_spec (.done r ((keywords_none cvTable_good r).1 hk))
  · exact cv_spec (words_written hw (fun e => absurd e ht) hws hb hr hi
      ((keywords_none cvTable_good r).1 hk) cvWords_long)

theorem cv_none_run {r : Input} (hk : keywords cvTable r = .err) : parseCv r = .ok r CV.none := by
  have := cv_spec (.done (words := cvWords) r ((keywords_none cvTable_good r).1 hk))
  rw [this]; rfl

/-- Reading a C-style type name. -/
theorem legacyText_run {n : LegacyName} {t b r : Input} (h : LegacyText n t) (hb : Blank b)
    (hr : NoSp r) (hi : idHead r = true → b ≠ []) (hk : keywords legacyTable r = .err) :
    parseLegacyName (t ++ b ++ r) = .ok r n := by
  obtain ⟨ws, hd, hw⟩ := h
  obtain ⟨sp, hsp, hp⟩ := hd
  obtain ⟨h1, h2, -⟩ := spell_build n sp hsp
  have hws : ∀ w ∈ ws, w ∈ legacyWords := fun w hw => h1 w (hp.subset hw)
  have hne : ws ≠ [] := by
    rintro rfl
    exact h2 (List.nil_perm.1 hp)
  exact (legacy_spec (words_written hw (fun e => absurd e hne) hws hb hr hi
    ((keywords_none legacyTable_good r).1 hk) legacyWords_long)).1 n ⟨sp, hsp, hp⟩

/-! ## Numbers -/

theorem digits_eq (n : Nat) : digits n = Nat.toDigits 10 n := by
  rw [digits]
  show n.repr.toList = _
  exact Nat.toList_repr

theorem digits_isDigit (n : Nat) : ∀ c ∈ digits n, c.isDigit = true := by
  intro c hc
  rw [digits_eq] at hc
  exact Nat.isDigit_of_mem_toDigits (by omega) (by omega) hc

theorem digits_ne (n : Nat) : digits n ≠ [] := by
  rw [digits_eq]; exact Nat.toDigits_ne_nil

theorem digits_value (n : Nat) :
    (digits n).foldl (fun acc c => acc * 10 + (c.toNat - '0'.toNat)) 0 = n := by
  have h := Nat.ofDigitChars_ten_toDigits (n := n)
  rw [Nat.ofDigitChars_eq_foldl] at h
  rw [digits_eq]
  have : (fun (acc : Nat) (c : Char) => acc * 10 + (c.toNat - '0'.toNat)) =
      fun sofar c => 10 * sofar + (c.toNat - '0'.toNat) := by
    funext a c; rw [Nat.mul_comm]
  rw [this]; exact h

/-- The text does not start with a digit. -/
def NoDigit (s : Input) : Prop := ∀ c r, s = c :: r → c.isDigit = false

theorem noDigit_of_idHead {r : Input} (h : idHead r = false) : NoDigit r := by
  rintro c t rfl
  have : isIdCont c = false := h
  simp only [isIdCont, Bool.or_eq_false_iff] at this
  exact this.2

theorem digits_takeWhile1 (n : Nat) {r : Input} (hr : NoDigit r) :
    P.takeWhile1 Char.isDigit (digits n ++ r) = .ok r (digits n) := by
  have h := takeWhile_append_of_end (f := Char.isDigit) (w := digits n) (t := r) (digits_isDigit n) hr
  rw [P.takeWhile1]
  refine verify_run (by rw [P.takeWhile, h.1, h.2]) ?_
  have := digits_ne n
  cases hd : digits n with
  | nil => exact absurd hd this
  | cons c t => rfl

theorem takeWhile1_err {f : Char → Bool} {r : Input} (hr : ∀ c t, r = c :: t → f c = false) :
    P.takeWhile1 f r = .err := by
  have h := takeWhile_append_of_end (f := f) (w := []) (t := r) (by simp) hr
  rw [P.takeWhile1]
  refine verify_err (r := r) (a := []) ?_ rfl
  simp only [List.nil_append] at h
  rw [P.takeWhile, h.1, h.2]

theorem uint_run {bits n : Nat} {r : Input} (hn : n < 2 ^ bits) (hr : NoDigit r) :
    P.uint bits (digits n ++ r) = .ok r n := by
  rw [P.uint]
  refine mapOpt_run (digits_takeWhile1 n hr) ?_
  show (if _ < 2 ^ bits then some _ else none) = some n
  rw [digits_value, if_pos hn]

theorem uint_err {bits : Nat} {r : Input} (hr : NoDigit r) : P.uint bits r = .err :=
  mapOpt_err' (takeWhile1_err hr)

/-! ## Literals -/

theorem letter_iff (c : Char) (h : IntLetter c) : isIntSuffix c = true ∧ c.isDigit = false := by
  simp only [IntLetter, List.mem_cons, List.not_mem_nil, or_false] at h
  rcases h with rfl | rfl | rfl | rfl | rfl | rfl <;> decide

theorem suffix_letter (c : Char) (h : isIntSuffix c = true) : IntLetter c := by
  simp only [isIntSuffix, Bool.or_eq_true, beq_iff_eq] at h
  have key : ∀ d : Char, c.toUpper = d → c = d ∨ ('a' ≤ c ∧ c ≤ 'z' ∧ c.toNat = d.toNat + 32) := by
    intro d hd
    unfold Char.toUpper at hd
    split at hd
    · rename_i hc
      right
      have h1 : c.val.toNat ≤ 122 := hc.2
      have h0 : 97 ≤ c.val.toNat := hc.1
      refine ⟨hc.1, hc.2, ?_⟩
      rw [← hd]
      simp only [Char.toNat, UInt32.toNat_add]
      have : ('A'.val - 'a'.val).toNat = 4294967264 := by decide
      omega
    · exact Or.inl hd
  have fin : ∀ e : Char, c.toNat = e.toNat → c = e := fun e he => Char.toNat_inj.1 he
  simp only [IntLetter, List.mem_cons, List.not_mem_nil, or_false]
  rcases h with (h | h) | h <;> rcases key _ h with h' | ⟨-, -, h'⟩
  · exact Or.inr (Or.inl h')
  · exact Or.inl (fin 'u' h')
  · exact Or.inr (Or.inr (Or.inr (Or.inl h')))
  · exact Or.inr (Or.inr (Or.inl (fin 'l' h')))
  · exact Or.inr (Or.inr (Or.inr (Or.inr (Or.inr h'))))
  · exact Or.inr (Or.inr (Or.inr (Or.inr (Or.inl (fin 'z' h')))))

/-- The text does not start with a letter of an integer suffix. -/
def NoLetter (s : Input) : Prop := ∀ c r, s = c :: r → ¬ IntLetter c

theorem letters_run {us r : Input} (hu : ∀ c ∈ us, IntLetter c) (hr : NoLetter r) :
    ∃ l, P.many0 (P.verify P.anychar isIntSuffix) (us ++ r) = .ok r l := by
  induction us with
  | nil =>
    refine ⟨[], many0_err ?_⟩
    cases r with
    | nil => rfl
    | cons c t =>
      refine verify_err (r := t) (a := c) rfl ?_
      cases hs : isIntSuffix c with
      | false => rfl
      | true => exact absurd (suffix_letter c hs) (hr c t rfl)
  | cons c us ih =>
    obtain ⟨l, hl⟩ := ih (fun d hd => hu d (by simp [hd]))
    exact ⟨c :: l, many0_step (verify_run (r := us ++ r) (a := c) rfl (letter_iff c (hu c (by simp))).1)
      (by simp) hl⟩

theorem letters_noDigit {us r : Input} (hu : ∀ c ∈ us, IntLetter c) (hr : NoDigit r) : NoDigit (us ++ r) := by
  cases us with
  | nil => exact hr
  | cons c us =>
    intro d t e
    cases e
    exact (letter_iff c (hu c (by simp))).2

theorem digits_head (n : Nat) (r : Input) : ∃ c t, digits n ++ r = c :: t ∧ c.isDigit = true := by
  have h1 := digits_ne n
  have h2 := digits_isDigit n
  cases hd : digits n with
  | nil => exact absurd hd h1
  | cons c t => exact ⟨c, t ++ r, rfl, h2 c (by simp [hd])⟩

theorem sign_none {s : Input} (h1 : s.head? ≠ some '-') (h2 : s.head? ≠ some '+') :
    P.or (do P.tag "-"; pure true) (P.or (do P.tag "+"; pure false) (pure false)) s = .ok s false := by
  refine or_r (bind_err (tag_err_head (c := '-') (cs := []) (by decide +kernel) h1)) ?_
  exact or_r (bind_err (tag_err_head (c := '+') (cs := []) (by decide +kernel) h2)) rfl

theorem int64_err {s : Input} (h1 : s.head? ≠ some '-') (h2 : s.head? ≠ some '+') (h3 : NoDigit s) :
    int64 s = .err := by
  rw [int64]
  exact bind_step (sign_none h1 h2) (mapOpt_err' (takeWhile1_err h3))

theorem digit_not_sign {c : Char} (h : c.isDigit = true) : c ≠ '-' ∧ c ≠ '+' := by
  constructor <;> (rintro rfl; revert h; decide)

theorem int64_pos {n : Nat} {r : Input} (hr : NoDigit r) :
    int64 (digits n ++ r) = if n < 2 ^ 63 then .ok r (n : Int) else .err := by
  obtain ⟨c, t, he, hc⟩ := digits_head n r
  have hs := digit_not_sign hc
  rw [int64]
  refine bind_step (sign_none ?_ ?_) ?_
  · rw [he]; simpa using hs.1
  · rw [he]; simpa using hs.2
  · refine bind_step (digits_takeWhile1 n hr) ?_
    simp only [digits_value, Bool.false_eq_true, if_false]
    split <;> rfl

theorem int64_neg {n : Nat} {r : Input} (hn : n ≤ 2 ^ 63) (hr : NoDigit r) :
    int64 ('-' :: (digits n ++ r)) = .ok r (-(n : Int)) := by
  rw [int64]
  refine bind_step (r := digits n ++ r) (a := true) ?_ ?_
  · refine or_l (bind_step (r := digits n ++ r) (a := ()) ?_ rfl)
    have : '-' :: (digits n ++ r) = "-".toList ++ (digits n ++ r) := rfl
    rw [this, tag_run]
  · refine bind_step (digits_takeWhile1 n hr) ?_
    simp only [digits_value, if_true, if_pos hn]
    rfl

theorem integer_err {s : Input} (h1 : s.head? ≠ some '-') (h2 : s.head? ≠ some '+') (h3 : NoDigit s) :
    integer s = .err := by
  rw [integer]
  exact bind_err (or_err (bind_err (int64_err h1 h2 h3)) (bind_err (uint_err h3)))

theorem integer_pos {n : Nat} {us r : Input} (hn : n < 2 ^ 63) (hu : ∀ c ∈ us, IntLetter c)
    (hr : NoDigit r) (hr' : NoLetter r) : integer (digits n ++ us ++ r) = .ok r (.i64 n) := by
  obtain ⟨l, hl⟩ := letters_run hu hr'
  rw [integer, List.append_assoc]
  refine bind_step (or_l (bind_step (r := us ++ r) (a := (n : Int)) ?_ rfl)) (bind_step hl rfl)
  rw [int64_pos (letters_noDigit hu hr), if_pos hn]

theorem integer_neg {n : Nat} {us r : Input} (hn : n ≤ 2 ^ 63) (hu : ∀ c ∈ us, IntLetter c)
    (hr : NoDigit r) (hr' : NoLetter r) :
    integer ('-' :: digits n ++ us ++ r) = .ok r (.i64 (-(n : Int))) := by
  obtain ⟨l, hl⟩ := letters_run hu hr'
  rw [integer]
  simp only [List.cons_append, List.append_assoc]
  exact bind_step (or_l (bind_step (int64_neg hn (letters_noDigit hu hr)) rfl)) (bind_step hl rfl)

theorem integer_large {n : Nat} {us r : Input} (hn : 2 ^ 63 ≤ n) (hn' : n < 2 ^ 64)
    (hu : ∀ c ∈ us, IntLetter c) (hr : NoDigit r) (hr' : NoLetter r) :
    integer (digits n ++ us ++ r) = .ok r (.u64 n) := by
  obtain ⟨l, hl⟩ := letters_run hu hr'
  rw [integer, List.append_assoc]
  refine bind_step (or_r (bind_err ?_) (bind_step (uint_run hn' (letters_noDigit hu hr)) rfl))
    (bind_step hl rfl)
  rw [int64_pos (letters_noDigit hu hr), if_neg (by omega)]

theorem digitTable_spec : ∀ e ∈ digitTable, hexVal e.1 = e.2 ∧
    (e.2 < 8 → ('0' ≤ e.1 && e.1 ≤ '7') = true) ∧
    (e.1.isDigit || ('a' ≤ e.1 && e.1 ≤ 'f') || ('A' ≤ e.1 && e.1 ≤ 'F')) = true := by decide +kernel

theorem numeral_spec {base : Nat} {t : Input} {n : Nat} (h : Numeral base t n) :
    t.foldl (fun acc c => acc * base + hexVal c) 0 = n ∧ t ≠ [] ∧
    ∀ c ∈ t, ∃ v, (c, v) ∈ digitTable ∧ v < base := by
  induction h with
  | one c v hc hv =>
    refine ⟨?_, by simp, fun d hd => ?_⟩
    · simp only [List.foldl_cons, List.foldl_nil, (digitTable_spec _ hc).1]; omega
    · simp only [List.mem_cons, List.not_mem_nil, or_false] at hd
      subst hd; exact ⟨v, hc, hv⟩
  | more t n c v _ hc hv ih =>
    obtain ⟨h1, h2, h3⟩ := ih
    refine ⟨?_, by simp, fun d hd => ?_⟩
    · rw [List.foldl_append, h1]
      simp only [List.foldl_cons, List.foldl_nil, (digitTable_spec _ hc).1]
    · rcases List.mem_append.1 hd with hd | hd
      · exact h3 d hd
      · simp only [List.mem_cons, List.not_mem_nil, or_false] at hd
        subst hd; exact ⟨v, hc, hv⟩

theorem takeWhile1_run {f : Char → Bool} {w r : Input} (hw : ∀ c ∈ w, f c = true) (hne : w ≠ [])
    (hr : ∀ c t, r = c :: t → f c = false) : P.takeWhile1 f (w ++ r) = .ok r w := by
  have h := takeWhile_append_of_end (f := f) (w := w) (t := r) hw hr
  rw [P.takeWhile1]
  refine verify_run (by rw [P.takeWhile, h.1, h.2]) ?_
  cases w with
  | nil => exact absurd rfl hne
  | cons c t => rfl

theorem charVal_err {c v : Char} {s : Input} (h : s.head? ≠ some c) : charVal c v s = .err := bind_err (char_err h)

/-- The simple escapes fail on other characters. -/
theorem escape_simple_err {s r : Input} {c : Char} (h : ∀ d ∈ ['t', 'r', 'n', '\'', '"', '\\'], s.head? ≠ some d)
    (h' : (P.or octEscape (do P.or (P.char 'x') (P.or (P.char 'u') (P.char 'U')); hexEscape)) s = .ok r c) :
    escapeSequence s = .ok r c := by
  rw [escapeSequence]
  refine or_r (charVal_err (h _ (by simp))) (or_r (charVal_err (h _ (by simp))) (or_r (charVal_err (h _ (by simp))) ?_))
  exact or_r (charVal_err (h _ (by simp))) (or_r (charVal_err (h _ (by simp))) (or_r (charVal_err (h _ (by simp))) h'))

theorem charText_run {c : Char} {t r : Input} (h : CharText c t) :
    (do let x ← P.or (do P.char '\\'; escapeSequence) P.anychar
        P.char '\''
        pure x : P Char) (t ++ '\'' :: r) = .ok r c := by
  rcases h with ⟨h1, rfl⟩ | ⟨d, h1, h2, rfl⟩ | ⟨p, d, hp, h1, rfl⟩ | h
  · refine bind_step (r := '\'' :: r) (a := c) (or_r (bind_err (char_err ?_)) rfl)
      (bind_step (char_run _ _) rfl)
    simpa using h1
  · obtain ⟨h3, h4, h5⟩ := numeral_spec h1
    refine bind_step (r := '\'' :: r) (a := c) (or_l (bind_step (char_run _ _) (escape_simple_err ?_ (or_l ?_))))
      (bind_step (char_run _ _) rfl)
    · intro e he
      cases d with
      | nil => exact absurd rfl h4
      | cons x d =>
        obtain ⟨v, hx, hv⟩ := h5 x (by simp)
        show (x :: (d ++ '\'' :: r)).head? ≠ some e
        simp only [List.head?_cons, ne_eq, Option.some.injEq]
        rintro rfl
        revert hx he hv; clear h1 h3 h4 h5
        have : ∀ e ∈ digitTable, e.2 < 8 → e.1 ∉ ['t', 'r', 'n', '\'', '"', '\\'] := by decide +kernel
        intro hx hv he; exact this _ hx hv he
    · rw [octEscape]
      refine mapOpt_run (takeWhile1_run (fun x hx => ?_) h4 ?_) ?_
      · obtain ⟨v, hx, hv⟩ := h5 x hx
        exact (digitTable_spec _ hx).2.1 hv
      · intro x u e; simp only [List.cons.injEq] at e; rw [← e.1]; decide
      · simp only [h3, if_pos h2]
        exact congrArg some (Char.ofNat_toNat c)
  · obtain ⟨h3, h4, h5⟩ := numeral_spec h1
    refine bind_step (r := '\'' :: r) (a := c) (or_l (bind_step (char_run _ _) (escape_simple_err ?_ (or_r ?_ ?_))))
      (bind_step (char_run _ _) rfl)
    · intro e he
      show (p :: (d ++ '\'' :: r)).head? ≠ some e
      simp only [List.head?_cons, ne_eq, Option.some.injEq]
      rintro rfl
      have : ∀ p ∈ ['x', 'u', 'U'], p ∉ ['t', 'r', 'n', '\'', '"', '\\'] := by decide
      exact this _ hp he
    · rw [octEscape]
      refine mapOpt_err' (takeWhile1_err ?_)
      intro x u e
      have e : p :: (d ++ '\'' :: r) = x :: u := e
      simp only [List.cons.injEq] at e
      rw [← e.1]
      have : ∀ p ∈ ['x', 'u', 'U'], ('0' ≤ p && p ≤ '7') = false := by decide
      exact this _ hp
    · refine bind_step (r := d ++ '\'' :: r) (a := ()) ?_ ?_
      · simp only [List.mem_cons, List.not_mem_nil, or_false] at hp
        rcases hp with rfl | rfl | rfl <;> rfl
      · rw [hexEscape]
        refine mapOpt_run (takeWhile1_run (fun x hx => ?_) h4 ?_) ?_
        · obtain ⟨v, hx, hv⟩ := h5 x hx
          exact (digitTable_spec _ hx).2.2
        · intro x u e; simp only [List.cons.injEq] at e; rw [← e.1]; decide
        · simp only [h3]
          have hv : c.toNat.isValidChar := c.valid
          have hlt : c.toNat < 4294967296 := c.val.toNat_lt
          rw [if_pos (by simpa [hv] using hlt)]
          exact congrArg some (Char.ofNat_toNat c)
  · simp only [List.mem_cons, List.not_mem_nil, or_false, Prod.mk.injEq] at h
    rcases h with ⟨rfl, rfl⟩ | ⟨rfl, rfl⟩ | ⟨rfl, rfl⟩ | ⟨rfl, rfl⟩ | ⟨rfl, rfl⟩ | ⟨rfl, rfl⟩ | ⟨rfl, rfl⟩ <;>
      with_unfolding_all rfl

theorem character_run {pre : String} {c : Char} {t r : Input}
    (hp : pre ∈ ["", "u8", "u", "U", "L"]) (h : CharText c t) :
    character (pre.toList ++ '\'' :: t ++ ['\''] ++ r) = .ok r c ∧
    integer (pre.toList ++ '\'' :: t ++ ['\''] ++ r) = .err := by
  have h1 := charText_run (r := r) h
  have e : ∀ p : List Char, p ++ '\'' :: t ++ ['\''] ++ r = p ++ '\'' :: (t ++ '\'' :: r) := by
    intro p; simp
  rw [e]
  simp only [List.mem_cons, List.not_mem_nil, or_false] at hp
  constructor
  · rw [character]
    refine bind_step (r := '\'' :: (t ++ '\'' :: r)) (a := if pre = "" then none else some ()) ?_
      (bind_step (char_run _ _) h1)
    generalize t ++ '\'' :: r = u
    rcases hp with rfl | rfl | rfl | rfl | rfl <;> with_unfolding_all rfl
  · generalize t ++ '\'' :: r = u
    rcases hp with rfl | rfl | rfl | rfl | rfl <;> with_unfolding_all rfl

/-- Reading the value of a literal. -/
theorem litVal_run {K : Char → Prop} {v : LitVal} {t r : Input} (h : LitText K ⟨v, none⟩ t) (hr : NoDigit r)
    (hr' : NoLetter r) :
    P.or integer (do let c ← character; pure (LitVal.chr c)) (t ++ r) = .ok r v := by
  cases h with
  | pos n us hn hu => exact or_l (integer_pos hn hu hr hr')
  | neg n us h0 hn hu => exact or_l (integer_neg hn hu hr hr')
  | large n us hn hn' hu => exact or_l (integer_large hn hn' hu hr hr')
  | chr pre c t hp _ hc =>
    obtain ⟨h1, h2⟩ := character_run (r := r) hp hc
    exact or_r h2 (bind_step h1 rfl)

theorem noLetter_of_idHead {r : Input} (h : idHead r = false) : NoLetter r := by
  rintro c t rfl hl
  have : isIdCont c = false := h
  simp only [IntLetter, List.mem_cons, List.not_mem_nil, or_false] at hl
  rcases hl with rfl | rfl | rfl | rfl | rfl | rfl <;> (revert this; decide)

theorem idStart_of_idHead {r : Input} (h : idHead r = false) : ∀ c t, r = c :: t → isIdStart c = false := by
  rintro c t rfl
  have : isIdCont c = false := h
  cases hs : isIdStart c with
  | false => rfl
  | true => rw [idStart_cont hs] at this; cases this

theorem start_noDigit {c : Char} (h : isIdStart c = true) : c.isDigit = false := by
  simp only [isIdStart, Bool.or_eq_true, beq_iff_eq] at h
  simp only [Char.isDigit, Char.isAlpha, Char.isUpper, Char.isLower, Bool.or_eq_true, Bool.and_eq_true,
    decide_eq_true_eq, Bool.and_eq_false_iff, decide_eq_false_iff_not, UInt32.not_le] at *
  rcases h with (h | rfl) | rfl
  · right
    rcases h with ⟨h, -⟩ | ⟨h, -⟩
    · exact UInt32.lt_of_lt_of_le (by decide) h
    · exact UInt32.lt_of_lt_of_le (by decide) h
  · right; decide
  · left; decide

theorem literal_run {K : Char → Prop} {l : Literal} {t r : Input} (h : LitText K l t) (hr : idHead r = false) :
    literal (t ++ r) = .ok r l := by
  obtain ⟨v, o⟩ := l
  cases o with
  | none =>
    rw [literal]
    exact bind_step (litVal_run h (noDigit_of_idHead hr) (noLetter_of_idHead hr))
      (bind_step (opt_none (identifier_err (idStart_of_idHead hr))) rfl)
  | some i =>
    cases h with
    | suffix v t i h hi hl =>
      have hi' := hi
      obtain ⟨-, c, cs, rfl, hc⟩ := hi'
      rw [literal, List.append_assoc]
      refine bind_step (litVal_run h ?_ ?_) (bind_step (opt_some (identifier_run hi hr)) rfl)
      · intro d u e; cases e; exact start_noDigit hc
      · intro d u e; cases e; exact hl c cs rfl

theorem literal_err {s : Input} (h1 : s.head? ≠ some '-') (h2 : s.head? ≠ some '+') (h3 : NoDigit s)
    (h4 : ∀ r, s ≠ '\'' :: r ∧ s ≠ 'u' :: '\'' :: r ∧ s ≠ 'U' :: '\'' :: r ∧ s ≠ 'L' :: '\'' :: r ∧
      s ≠ 'u' :: '8' :: '\'' :: r) : literal s = .err := by
  rw [literal]
  refine bind_err (or_err (integer_err h1 h2 h3) (bind_err ?_))
  rw [character]
  have key : ∃ r o, P.opt (P.or (P.tag "u8") (P.or (P.char 'u') (P.or (P.char 'U') (P.char 'L')))) s =
      .ok r o ∧ r.head? ≠ some '\'' := by
    by_cases h8 : ∃ r, s = 'u' :: '8' :: r
    · obtain ⟨r, rfl⟩ := h8
      refine ⟨r, some (), rfl, ?_⟩
      cases r with
      | nil => simp
      | cons c r => simp only [List.head?_cons]; intro e; cases e; exact (h4 r).2.2.2.2 rfl
    · have ht : P.tag "u8" s = .err := tag_err (fun r e => h8 ⟨r, e⟩)
      cases s with
      | nil => exact ⟨[], none, rfl, by simp⟩
      | cons c r =>
        by_cases hc : c = 'u' ∨ c = 'U' ∨ c = 'L'
        · refine ⟨r, some (), ?_, ?_⟩
          · refine opt_some (or_r ht ?_)
            rcases hc with rfl | rfl | rfl <;> rfl
          · cases r with
            | nil => simp
            | cons d r =>
              simp only [List.head?_cons]
              intro e
              cases e
              rcases hc with rfl | rfl | rfl
              · exact (h4 r).2.1 rfl
              · exact (h4 r).2.2.1 rfl
              · exact (h4 r).2.2.2.1 rfl
        · simp only [not_or] at hc
          refine ⟨c :: r, none, opt_none (or_err ht (or_err ?_ (or_err ?_ ?_))), ?_⟩
          · exact char_err (by simpa using hc.1)
          · exact char_err (by simpa using hc.2.1)
          · exact char_err (by simpa using hc.2.2)
          · simp only [List.head?_cons]; intro e; cases e; exact (h4 r).1 rfl
  obtain ⟨r, o, h5, h6⟩ := key
  exact bind_step h5 (bind_err (char_err h6))

end Verif.Cpp
