/-
C46: C-style type names.  C48: cv and reference qualifiers.
-/
import Verif.Cpp.Atoms

set_option autoImplicit false
set_option linter.unusedVariables false
set_option linter.unusedSimpArgs false

namespace Verif.Cpp

/-! ## Specification: a sequence of keywords written in a text -/

/-- No word of `words` starts `s` as a whole word, i.e. without being followed by
a letter, digit, `_` or `$`. -/
def NoWord (words : List String) (s : Input) : Prop :=
  ∀ w ∈ words, ∀ t, s = w.toList ++ t → ∃ c t', t = c :: t' ∧ isIdCont c = true

/-- `Written words ws s rest`: the text `s` consists of the words `ws`, taken
from `words`, each one followed by any number of blanks and not glued to the
next one, and then of `rest`, which does not start with one of the words. -/
inductive Written (words : List String) : List String → Input → Input → Prop where
  | done (rest : Input) : NoWord words rest → Written words [] rest rest
  | word (w : String) (ws : List String) (blanks s rest : Input) :
      w ∈ words → (∀ c ∈ blanks, P.isSpace c = true) →
      (∀ c t, s = c :: t → P.isSpace c = false) →
      (blanks = [] → ∀ c t, s = c :: t → isIdCont c = false) →
      Written words ws s rest → Written words (w :: ws) (w.toList ++ blanks ++ s) rest

/-! ## Keyword tables -/

theorem space_not_idcont : ∀ c, P.isSpace c = true → isIdCont c = false := by
  intro c h
  simp only [P.isSpace, Bool.or_eq_true, beq_iff_eq] at h
  rcases h with ((h | h) | h) | h <;> subst h <;> decide

theorem takeWhile_append_of_end {f : Char → Bool} {w t : List Char} (hw : ∀ c ∈ w, f c = true)
    (ht : ∀ c t', t = c :: t' → f c = false) :
    (w ++ t).takeWhile f = w ∧ (w ++ t).dropWhile f = t := by
  induction w with
  | nil =>
    cases t with
    | nil => exact ⟨rfl, rfl⟩
    | cons c t' => simp [ht c t' rfl]
  | cons a w ih =>
    have h1 := ih (fun c hc => hw c (by simp [hc]))
    have h2 := hw a (by simp)
    constructor
    · simp [h2, h1.1]
    · simp [h2, h1.2]

theorem takeWhile_end {f : Char → Bool} (s : List Char) :
    ∀ c t', s.dropWhile f = c :: t' → f c = false := by
  intro c t' h
  induction s with
  | nil => cases h
  | cons a s ih =>
    simp only [List.dropWhile_cons] at h
    split at h
    · exact ih h
    · rename_i ha
      cases h; simpa using ha

theorem keyword_eq {w : String} (hw : ∀ c ∈ w.toList, isIdCont c = true) (s : Input) :
    keyword w s = if s.takeWhile isIdCont = w.toList then .ok (s.dropWhile isIdCont) () else .err := by
  simp only [keyword, P.bind_run, P.tag]
  rcases tagL_cases w.toList s with ⟨r, hr⟩ | hr
  · rw [hr]
    have hs := tagL_ok hr
    cases r with
    | nil =>
      have := takeWhile_append_of_end (t := []) hw (by simp)
      rw [← hs] at this
      simp [endOfIdentifier, this]
    | cons c t' =>
      by_cases hc : isIdCont c = true
      · have hne : s.takeWhile isIdCont ≠ w.toList := by
          rw [hs]
          intro hcon
          have h1 := congrArg List.length hcon
          have h2 : List.takeWhile isIdCont (w.toList ++ c :: t') =
              w.toList ++ List.takeWhile isIdCont (c :: t') := by
            rw [List.takeWhile_append_of_pos hw]
          rw [h2] at h1
          simp [hc] at h1
        simp [endOfIdentifier, hc, hne]
      · have := takeWhile_append_of_end (t := c :: t') hw (by
          intro c' t'' he; cases he; simpa using hc)
        rw [← hs] at this
        simp [endOfIdentifier, hc, this]
  · rw [hr]
    rw [if_neg]
    intro he
    have h1 := List.takeWhile_append_dropWhile (p := isIdCont) (l := s)
    rw [he] at h1
    rw [← h1, tagL_append] at hr
    cases hr

theorem keywords_eq {α : Type} (table : List (String × α))
    (ht : ∀ e ∈ table, ∀ c ∈ e.1.toList, isIdCont c = true) (s : Input) :
    keywords table s = match table.find? (fun e => e.1.toList = s.takeWhile isIdCont) with
      | some e => .ok (s.dropWhile isIdCont) e.2
      | none => .err := by
  induction table with
  | nil => rfl
  | cons e es ih =>
    have h1 := keyword_eq (ht e (by simp)) s
    simp only [keywords, h1, List.find?_cons]
    by_cases he : s.takeWhile isIdCont = e.1.toList
    · simp [he]
    · have he' : ¬ (e.1.toList = s.takeWhile isIdCont) := fun h => he h.symm
      simp [he, he', ih (fun e' h => ht e' (by simp [h]))]

/-- Properties a keyword table must have: words made of identifier characters,
not empty, pairwise different. -/
structure GoodTable {α : Type} (table : List (String × α)) : Prop where
  idc : ∀ e ∈ table, ∀ c ∈ e.1.toList, isIdCont c = true
  ne : ∀ e ∈ table, e.1.toList ≠ []
  nodup : (table.map (·.1)).Nodup

theorem legacyTable_good : GoodTable legacyTable := ⟨by decide +kernel, by decide +kernel, by decide +kernel⟩
theorem cvTable_good : GoodTable cvTable := ⟨by decide +kernel, by decide +kernel, by decide +kernel⟩

theorem keywords_word {α : Type} {table : List (String × α)} (h : GoodTable table)
    {e : String × α} (he : e ∈ table) {t : Input} (ht : ∀ c t', t = c :: t' → isIdCont c = false) :
    keywords table (e.1.toList ++ t) = .ok t e.2 := by
  rw [keywords_eq table h.idc]
  have h1 := takeWhile_append_of_end (h.idc e he) ht
  rw [h1.1, h1.2]
  have : table.find? (fun e' => decide (e'.1.toList = e.1.toList)) = some e := by
    have hn := h.nodup
    clear h
    induction table with
    | nil => cases he
    | cons x xs ih =>
      simp only [List.find?_cons]
      by_cases hx : x.1.toList = e.1.toList
      · simp only [hx, decide_true]
        have hxe : x.1 = e.1 := String.toList_inj.1 hx
        rcases List.mem_cons.1 he with rfl | he'
        · rfl
        · exfalso
          simp only [List.map_cons, List.nodup_cons] at hn
          exact hn.1 (hxe ▸ List.mem_map.2 ⟨e, he', rfl⟩)
      · simp only [hx, decide_false]
        rcases List.mem_cons.1 he with rfl | he'
        · exact absurd rfl hx
        · simp only [List.map_cons, List.nodup_cons] at hn
          exact ih he' hn.2
  rw [this]

theorem keywords_none {α : Type} {table : List (String × α)} (h : GoodTable table) (s : Input) :
    keywords table s = .err ↔ NoWord (table.map (·.1)) s := by
  constructor
  · intro he w hw t hs
    obtain ⟨e, hm, rfl⟩ := List.mem_map.1 hw
    by_contra hcon
    rw [hs, keywords_word h hm] at he
    · cases he
    · intro c t' ht
      by_contra hc
      exact hcon ⟨c, t', ht, by simpa using hc⟩
  · intro hn
    rw [keywords_eq table h.idc]
    cases hf : table.find? (fun e => decide (e.1.toList = s.takeWhile isIdCont)) with
    | none => rfl
    | some e =>
      exfalso
      have hm := List.mem_of_find?_eq_some hf
      have hp := List.find?_some hf
      simp only [decide_eq_true_eq] at hp
      have hs := (List.takeWhile_append_dropWhile (p := isIdCont) (l := s)).symm
      rw [← hp] at hs
      obtain ⟨c, t', h1, h2⟩ := hn e.1 (List.mem_map.2 ⟨e, hm, rfl⟩) _ hs
      have := takeWhile_end s c t' h1
      rw [this] at h2; cases h2

theorem keywords_cases {α : Type} {table : List (String × α)} (h : GoodTable table) (s : Input) :
    keywords table s = .err ∨ ∃ e ∈ table, ∃ t, s = e.1.toList ++ t ∧
      (∀ c t', t = c :: t' → isIdCont c = false) ∧ keywords table s = .ok t e.2 := by
  rw [keywords_eq table h.idc]
  cases hf : table.find? (fun e => decide (e.1.toList = s.takeWhile isIdCont)) with
  | none => exact Or.inl rfl
  | some e =>
    right
    have hm := List.mem_of_find?_eq_some hf
    have hp := List.find?_some hf
    simp only [decide_eq_true_eq] at hp
    refine ⟨e, hm, s.dropWhile isIdCont, ?_, takeWhile_end s, rfl⟩
    rw [hp, List.takeWhile_append_dropWhile]

theorem spaced_word {α : Type} {table : List (String × α)} (h : GoodTable table)
    {e : String × α} (he : e ∈ table) {b s : Input}
    (hb : ∀ c ∈ b, P.isSpace c = true) (hs : ∀ c t, s = c :: t → P.isSpace c = false)
    (hg : b = [] → ∀ c t, s = c :: t → isIdCont c = false) :
    spaced (keywords table) (e.1.toList ++ b ++ s) = .ok s e.2 := by
  have hk : keywords table (e.1.toList ++ b ++ s) = .ok (b ++ s) e.2 := by
    rw [List.append_assoc]
    apply keywords_word h he
    intro c t' hc
    cases b with
    | nil => exact hg rfl c t' hc
    | cons d b' =>
      cases hc
      exact space_not_idcont _ (hb _ (by simp))
  have h2 := takeWhile_append_of_end hb hs
  simp only [spaced, P.bind_run, hk, P.space0, P.takeWhile, h2.2, P.pure_run, P.pure]

/-- Looking up a word of the table. -/
def valueOf {α : Type} (table : List (String × α)) (w : String) : Option α :=
  (table.find? (fun e => e.1 = w)).map (·.2)

theorem valueOf_mem {α : Type} {table : List (String × α)} (h : GoodTable table)
    {e : String × α} (he : e ∈ table) : valueOf table e.1 = some e.2 := by
  have := keywords_word h he (t := []) (by simp)
  rw [keywords_eq table h.idc] at this
  have h1 := takeWhile_append_of_end (t := []) (h.idc e he) (by simp)
  rw [h1.1] at this
  have hfun : (fun e' : String × α => decide (e'.1.toList = e.1.toList)) =
      (fun e' => decide (e'.1 = e.1)) := by
    funext e'; exact decide_eq_decide.2 String.toList_inj
  rw [hfun] at this
  unfold valueOf
  cases hf : table.find? (fun e' => decide (e'.1 = e.1)) with
  | none => rw [hf] at this; cases this
  | some x => rw [hf] at this; simp only [Res.ok.injEq] at this; simp [this.2]

/-- The keyword loop reads exactly the keywords written at the start of the text. -/
theorem many0_written {α : Type} {table : List (String × α)} (h : GoodTable table)
    {ws : List String} {s rest : Input} (hw : Written (table.map (·.1)) ws s rest) :
    P.many0 (spaced (keywords table)) s = .ok rest (ws.filterMap (valueOf table)) := by
  induction hw with
  | done rest hn =>
    rw [P.many0_run]
    have : spaced (keywords table) rest = .err := by
      simp only [spaced, P.bind_run, (keywords_none h rest).2 hn]
    rw [this]; rfl
  | word w ws b s rest hm hb hs hg _ ih =>
    obtain ⟨e, he, rfl⟩ := List.mem_map.1 hm
    have hne := List.length_pos_iff.2 (h.ne e he)
    rw [P.many0_run, spaced_word h he hb hs hg]
    have hlt : s.length < (e.1.toList ++ b ++ s).length := by
      simp only [List.length_append]; omega
    simp only [hlt, if_true, ih, List.filterMap_cons, valueOf_mem h he]

/-- Every text is made of some keywords followed by a rest. -/
theorem written_total {α : Type} {table : List (String × α)} (h : GoodTable table) (s : Input) :
    ∃ ws rest, Written (table.map (·.1)) ws s rest := by
  induction hn : s.length using Nat.strong_induction_on generalizing s with
  | _ n ih =>
    rcases keywords_cases h s with he | ⟨e, he, t, hs, ht, -⟩
    · exact ⟨[], s, .done s ((keywords_none h s).1 he)⟩
    · have hne := List.length_pos_iff.2 (h.ne e he)
      have hsuf : t.dropWhile P.isSpace <:+ t := List.dropWhile_suffix _
      have hl := hsuf.length_le
      have hlen : (t.dropWhile P.isSpace).length < n := by
        rw [← hn, hs, List.length_append]; omega
      obtain ⟨ws, rest, hw⟩ := ih _ hlen (t.dropWhile P.isSpace) rfl
      refine ⟨e.1 :: ws, rest, ?_⟩
      have heq : s = e.1.toList ++ t.takeWhile P.isSpace ++ t.dropWhile P.isSpace := by
        rw [List.append_assoc, List.takeWhile_append_dropWhile, hs]
      rw [heq]
      refine .word e.1 ws _ _ rest (List.mem_map.2 ⟨e, he, rfl⟩) ?_ (takeWhile_end t) ?_ hw
      · intro c hc
        have := List.all_takeWhile (p := P.isSpace) (l := t)
        exact List.all_eq_true.1 this c hc
      · intro hb c t' hc
        apply ht c t'
        rw [← List.takeWhile_append_dropWhile (p := P.isSpace) (l := t), hb, List.nil_append, hc]

/-! ## C46: C-style type names -/

/-- The ten keywords of C arithmetic type names. -/
def legacyWords : List String :=
  ["float", "double", "long", "unsigned", "char", "int", "__int128", "signed", "short", "_Complex"]

theorem legacyWords_eq : legacyTable.map (·.1) = legacyWords := rfl

/-- Specification: the spellings of the arithmetic types, as in
<https://en.cppreference.com/w/cpp/language/types> and the C standard, up to the
order of keywords. -/
def LegacyName.spellings : LegacyName → List (List String)
  | .signedShort => [["short"], ["short", "int"], ["signed", "short"], ["signed", "short", "int"]]
  | .unsignedShort => [["unsigned", "short"], ["unsigned", "short", "int"]]
  | .signedInt => [["int"], ["signed"], ["signed", "int"]]
  | .unsignedInt => [["unsigned"], ["unsigned", "int"]]
  | .signedLong => [["long"], ["long", "int"], ["signed", "long"], ["signed", "long", "int"]]
  | .unsignedLong => [["unsigned", "long"], ["unsigned", "long", "int"]]
  | .signedLongLong => [["long", "long"], ["long", "long", "int"], ["signed", "long", "long"],
      ["signed", "long", "long", "int"]]
  | .unsignedLongLong => [["unsigned", "long", "long"], ["unsigned", "long", "long", "int"]]
  | .signedInt128 => [["__int128"], ["signed", "__int128"]]
  | .unsignedInt128 => [["unsigned", "__int128"]]
  | .char => [["char"]]
  | .signedChar => [["signed", "char"]]
  | .unsignedChar => [["unsigned", "char"]]
  | .float => [["float"]]
  | .double => [["double"]]
  | .longDouble => [["long", "double"]]
  | .floatComplex => [["float", "_Complex"]]
  | .doubleComplex => [["double", "_Complex"]]
  | .longDoubleComplex => [["long", "double", "_Complex"]]

/-- Keywords `ws` denote type `n`: they are one of its spellings, in any order. -/
def Denotes (ws : List String) (n : LegacyName) : Prop := ∃ sp ∈ n.spellings, ws.Perm sp

/-- Keywords of a signedness. -/
def LSign.words : Option LSign → List String
  | none => []
  | some .signed => ["signed"]
  | some .unsigned => ["unsigned"]

/-- Keywords of a size. -/
def LSize.words : Option LSize → List String
  | none => []
  | some .short => ["short"]
  | some .long => ["long"]
  | some .longLong => ["long", "long"]

/-- Keywords of a base. -/
def LBase.words : Option LBase → List String
  | none => []
  | some .float => ["float"]
  | some .double => ["double"]
  | some .char => ["char"]
  | some .int => ["int"]
  | some .int128 => ["__int128"]

/-- A canonical list of keywords for each builder. -/
def LBuilder.canon (b : LBuilder) : List String :=
  LSign.words b.sign ++ LSize.words b.size ++ LBase.words b.base ++
    (if b.complex then ["_Complex"] else [])

/-- Step of the fold on keywords. -/
def stepWord (acc : Option LBuilder) (w : String) : Option LBuilder :=
  match valueOf legacyTable w with
  | some item => legacyStep acc item
  | none => acc

/-- Meaning of a sequence of keywords, as folded by the parser. -/
def foldWords (ws : List String) : Option LBuilder := ws.foldl stepWord (some LBuilder.empty)

theorem foldl_filterMap_words (ws : List String) (acc : Option LBuilder) :
    (ws.filterMap (valueOf legacyTable)).foldl legacyStep acc = ws.foldl stepWord acc := by
  induction ws generalizing acc with
  | nil => rfl
  | cons w ws ih =>
    simp only [List.filterMap_cons, List.foldl_cons, stepWord]
    cases h : valueOf legacyTable w <;> simp [ih]

/-- All builders. -/
def allBuilders : List LBuilder :=
  [none, some .float, some .double, some .char, some .int, some .int128].flatMap fun b =>
  [none, some .signed, some .unsigned].flatMap fun s =>
  [none, some .short, some .long, some .longLong].flatMap fun z =>
  [false, true].map fun c => ⟨b, s, z, c⟩

theorem mem_allBuilders (b : LBuilder) : b ∈ allBuilders := by
  obtain ⟨b, s, z, c⟩ := b
  rcases b with _ | b <;> rcases s with _ | s <;> rcases z with _ | z <;> cases c <;>
    (try cases b) <;> (try cases s) <;> (try cases z) <;> decide

theorem stepWord_none (w : String) : stepWord none w = none := by
  unfold stepWord
  cases valueOf legacyTable w <;> rfl

theorem fold_none (ws : List String) : ws.foldl stepWord none = none := by
  induction ws with
  | nil => rfl
  | cons w ws ih => rw [List.foldl_cons, stepWord_none, ih]

theorem step_canon_all : ∀ b ∈ allBuilders, ∀ w ∈ legacyWords,
    ∀ b', stepWord (some b) w = some b' → (b.canon ++ [w]).Perm b'.canon := by
  have h : ∀ b ∈ allBuilders, ∀ w ∈ legacyWords,
      (match stepWord (some b) w with
       | some b' => decide ((b.canon ++ [w]).Perm b'.canon)
       | none => true) = true := by decide +kernel
  intro b hb w hw b' hs
  have := h b hb w hw
  rw [hs] at this
  simpa using this

theorem step_comm_all : ∀ b ∈ allBuilders, ∀ w ∈ legacyWords, ∀ w' ∈ legacyWords,
    stepWord (stepWord (some b) w) w' = stepWord (stepWord (some b) w') w := by
  decide +kernel

theorem fold_canon_all : ∀ b ∈ allBuilders, foldWords b.canon = some b := by
  decide +kernel

theorem canon_words_all : ∀ b ∈ allBuilders, ∀ w ∈ b.canon, w ∈ legacyWords := by
  decide +kernel

theorem fold_perm {l l' : List String} (h : l.Perm l') (hl : ∀ w ∈ l, w ∈ legacyWords)
    (acc : Option LBuilder) : l.foldl stepWord acc = l'.foldl stepWord acc := by
  induction h generalizing acc with
  | nil => rfl
  | cons x _ ih =>
    simp only [List.foldl_cons]
    exact ih (fun w hw => hl w (by simp [hw])) _
  | swap x y l =>
    simp only [List.foldl_cons]
    congr 1
    cases acc with
    | none => simp [stepWord_none]
    | some b => exact step_comm_all b (mem_allBuilders b) y (hl y (by simp)) x (hl x (by simp))
  | trans h1 _ ih1 ih2 =>
    rw [ih1 hl, ih2 (fun w hw => hl w (h1.symm.subset hw))]

theorem foldWords_iff {ws : List String} (hw : ∀ w ∈ ws, w ∈ legacyWords) (b : LBuilder) :
    foldWords ws = some b ↔ ws.Perm b.canon := by
  constructor
  · induction ws using List.reverseRecOn generalizing b with
    | nil => intro h; cases h; exact List.Perm.refl _
    | append_singleton ws w ih =>
      intro h
      unfold foldWords at h
      rw [List.foldl_append, List.foldl_cons, List.foldl_nil] at h
      cases hf : ws.foldl stepWord (some LBuilder.empty) with
      | none => rw [hf, stepWord_none] at h; cases h
      | some b0 =>
        rw [hf] at h
        have h0 := ih (fun w' h' => hw w' (by simp [h'])) b0 hf
        exact (h0.append_right [w]).trans
          (step_canon_all b0 (mem_allBuilders b0) w (hw w (by simp)) b h)
  · intro h
    unfold foldWords
    rw [fold_perm h hw]
    exact fold_canon_all b (mem_allBuilders b)

theorem build_spell_all : ∀ b ∈ allBuilders, ∀ n, b.build = .name n →
    ∃ sp ∈ n.spellings, b.canon.Perm sp := by
  have h : ∀ b ∈ allBuilders,
      (match b.build with
       | .name n => n.spellings.any fun sp => decide (b.canon.Perm sp)
       | _ => true) = true := by decide +kernel
  intro b hb n hn
  have := h b hb
  rw [hn] at this
  simpa using this

theorem spell_build (n : LegacyName) : ∀ sp ∈ n.spellings,
    (∀ w ∈ sp, w ∈ legacyWords) ∧ sp ≠ [] ∧ ∃ b, foldWords sp = some b ∧ b.build = .name n := by
  have h : ∀ sp ∈ n.spellings, (∀ w ∈ sp, w ∈ legacyWords) ∧ sp ≠ [] ∧
      (match foldWords sp with
       | some b => decide (b.build = .name n)
       | none => false) = true := by cases n <;> decide +kernel
  intro sp hsp
  obtain ⟨h1, h2, h3⟩ := h sp hsp
  refine ⟨h1, h2, ?_⟩
  cases hf : foldWords sp with
  | none => rw [hf] at h3; cases h3
  | some b => rw [hf] at h3; exact ⟨b, rfl, by simpa using h3⟩

theorem unreachable_all : ∀ b ∈ allBuilders, b.build = .unreachable → b.canon = [] := by
  decide +kernel

theorem written_words {words : List String} {ws : List String} {s rest : Input}
    (h : Written words ws s rest) : ∀ w ∈ ws, w ∈ words := by
  induction h with
  | done => simp
  | word w ws b s rest hm _ _ _ _ ih =>
    intro w' h'
    rcases List.mem_cons.1 h' with rfl | h'
    · exact hm
    · exact ih w' h'

/-- Running the legacy parser on written keywords. -/
theorem legacy_run {ws : List String} {s rest : Input} (h : Written legacyWords ws s rest) :
    parseLegacyName s = match ws with
      | [] => .err
      | _ :: _ => match foldWords ws with
        | none => .err
        | some b => match b.build with
          | .name n => .ok rest n
          | .error => .err
          | .unreachable => .panic := by
  rw [← legacyWords_eq] at h
  have hsp : ∀ (w : String) (ws' : List String), ws = w :: ws' →
      P.many1 (spaced (keywords legacyTable)) s = .ok rest (ws.filterMap (valueOf legacyTable)) := by
    intro w ws' hws
    have hm := many0_written legacyTable_good h
    rw [P.many0_run] at hm
    simp only [P.many1, P.bind_run]
    cases hs : spaced (keywords legacyTable) s with
    | err =>
      rw [hs] at hm
      simp only [Res.ok.injEq] at hm
      exfalso
      obtain ⟨e, he, hee⟩ := List.mem_map.1 (written_words h w (by simp [hws]))
      have := valueOf_mem legacyTable_good he
      rw [hws, List.filterMap_cons, ← hee, this] at hm
      simp at hm
    | panic => rw [hs] at hm; cases hm
    | fuel => rw [hs] at hm; cases hm
    | ok r a =>
      rw [hs] at hm
      simp only at hm ⊢
      split at hm
      · cases hm' : P.many0 (spaced (keywords legacyTable)) r with
        | ok r' as => rw [hm'] at hm; simp only [Res.ok.injEq] at hm; simp [P.pure, hm.1, hm.2]
        | err => rw [hm'] at hm; cases hm
        | panic => rw [hm'] at hm; cases hm
        | fuel => rw [hm'] at hm; cases hm
      · cases hm
  cases ws with
  | nil =>
    cases h with
    | done _ hn =>
      have := (keywords_none legacyTable_good s).2 hn
      simp only [parseLegacyName, P.many1, P.bind_run, spaced, this]
  | cons w ws' =>
    simp only [parseLegacyName, P.bind_run, hsp w ws' rfl]
    have := foldl_filterMap_words (w :: ws') (some LBuilder.empty)
    rw [this]
    change _ = match foldWords (w :: ws') with
        | none => Res.err
        | some b => match b.build with
          | .name n => .ok rest n
          | .error => .err
          | .unreachable => .panic
    unfold foldWords
    cases (w :: ws').foldl stepWord (some LBuilder.empty) with
    | none => rfl
    | some b => cases hb : b.build <;> simp [hb, P.fail, P.crash]

/-- **C46.** For every text made of C type keywords `ws` (in any order, with any
blanks) followed by `rest`, the parser accepts and returns type `n`, leaving
`rest`, exactly if `ws` is a spelling of `n` up to the order of keywords; it
rejects the text, without panicking, if `ws` is a spelling of no type. -/
theorem legacy_spec {ws : List String} {s rest : Input} (h : Written legacyWords ws s rest) :
    (∀ n, Denotes ws n → parseLegacyName s = .ok rest n) ∧
    ((∀ n, ¬ Denotes ws n) → parseLegacyName s = .err) ∧
    (∀ r n, parseLegacyName s = .ok r n → r = rest ∧ Denotes ws n) := by
  have hws := written_words h
  have hr := legacy_run h
  have hden : ∀ b n, foldWords ws = some b → b.build = .name n → Denotes ws n := by
    intro b n hf hb
    obtain ⟨sp, hsp, hp⟩ := build_spell_all b (mem_allBuilders b) n hb
    exact ⟨sp, hsp, ((foldWords_iff hws b).1 hf).trans hp⟩
  refine ⟨?_, ?_, ?_⟩
  · rintro n ⟨sp, hsp, hp⟩
    obtain ⟨h1, h2, b, hb, hn⟩ := spell_build n sp hsp
    have hf : foldWords ws = some b := by
      rw [← hb]; exact fold_perm hp hws _
    cases ws with
    | nil => exact absurd (List.nil_perm.1 hp) h2
    | cons w ws' => rw [hr]; simp only [hf, hn]
  · intro hno
    rw [hr]
    cases ws with
    | nil => rfl
    | cons w ws' =>
      simp only
      cases hf : foldWords (w :: ws') with
      | none => rfl
      | some b =>
        simp only
        cases hb : b.build with
        | name n => exact absurd (hden b n hf hb) (hno n)
        | error => rfl
        | unreachable =>
          have h1 := unreachable_all b (mem_allBuilders b) hb
          have h2 := (foldWords_iff hws b).1 hf
          rw [h1] at h2
          exact absurd (List.perm_nil.1 h2) (by simp)
  · intro r n he
    rw [hr] at he
    cases ws with
    | nil => cases he
    | cons w ws' =>
      simp only at he
      cases hf : foldWords (w :: ws') with
      | none => rw [hf] at he; cases he
      | some b =>
        rw [hf] at he
        simp only at he
        cases hb : b.build with
        | name n' =>
          rw [hb] at he
          simp only [Res.ok.injEq] at he
          obtain ⟨rfl, rfl⟩ := he
          exact ⟨rfl, hden b _ hf hb⟩
        | error => rw [hb] at he; cases he
        | unreachable => rw [hb] at he; cases he

/-- **C46.** The type read depends only on the multiset of keywords: two texts
that spell the same keywords in different orders, with different blanks and
whatever follows, are both rejected, or both read as the same type. -/
theorem legacy_order_insensitive {ws ws' : List String} {s s' rest rest' : Input}
    (h : Written legacyWords ws s rest) (h' : Written legacyWords ws' s' rest')
    (hp : ws.Perm ws') :
    (parseLegacyName s = .err ∧ parseLegacyName s' = .err) ∨
    ∃ n, parseLegacyName s = .ok rest n ∧ parseLegacyName s' = .ok rest' n := by
  by_cases hd : ∃ n, Denotes ws n
  · obtain ⟨n, sp, hsp, hps⟩ := hd
    exact Or.inr ⟨n, (legacy_spec h).1 n ⟨sp, hsp, hps⟩,
      (legacy_spec h').1 n ⟨sp, hsp, hp.symm.trans hps⟩⟩
  · have hno : ∀ n, ¬ Denotes ws n := fun n hn => hd ⟨n, hn⟩
    refine Or.inl ⟨(legacy_spec h).2.1 hno, (legacy_spec h').2.1 ?_⟩
    rintro n ⟨sp, hsp, hps⟩
    exact hno n ⟨sp, hsp, hp.trans hps⟩

/-- **C46.** A spelling denotes at most one type. -/
theorem denotes_unique {ws : List String} {n n' : LegacyName} (h : Denotes ws n)
    (h' : Denotes ws n') : n = n' := by
  obtain ⟨sp, hsp, hp⟩ := h
  obtain ⟨sp', hsp', hp'⟩ := h'
  obtain ⟨h1, _, b, hb, hn⟩ := spell_build n sp hsp
  obtain ⟨h1', _, b', hb', hn'⟩ := spell_build n' sp' hsp'
  have e : foldWords sp = foldWords sp' := fold_perm (hp.symm.trans hp') h1 _
  rw [hb, hb'] at e
  cases e
  rw [hn] at hn'
  cases hn'; rfl

/-- **C46.** Whatever the input, the legacy name parser does not reach its
`unreachable!()`. -/
theorem legacy_no_panic (s : Input) : parseLegacyName s ≠ .panic := by
  obtain ⟨ws, rest, h⟩ := written_total legacyTable_good s
  rw [legacyWords_eq] at h
  have hs := legacy_spec h
  by_cases hd : ∃ n, Denotes ws n
  · obtain ⟨n, hn⟩ := hd
    rw [hs.1 n hn]; simp
  · rw [hs.2.1 (fun n hn => hd ⟨n, hn⟩)]; simp

/-- **C46.** The displayed name of a C-style type parses back to it. -/
theorem legacy_display_parses (n : LegacyName) :
    parseLegacyName n.show.toList = .ok [] n := by
  cases n <;> with_unfolding_all rfl

example : parseLegacyName "unsigned  int long\tlong&".toList = .ok ['&'] .unsignedLongLong := by
  with_unfolding_all rfl
example : parseLegacyName "long long long".toList = .err := by with_unfolding_all rfl
example : Denotes ["int", "unsigned", "long"] .unsignedLong :=
  ⟨["unsigned", "long", "int"], by decide, by decide⟩
example : Written legacyWords ["long", "double"] "long double*".toList ['*'] := by
  refine .word "long" ["double"] [' '] "double*".toList _ (by decide) (by decide) ?_ (by simp) ?_
  · intro c t h; simp at h; rw [← h.1]; decide
  · refine .word "double" [] [] ['*'] _ (by decide) (by decide) ?_ ?_ ?_
    · intro c t h; simp at h; rw [← h.1]; decide
    · intro _ c t h; simp at h; rw [← h.1]; decide
    · refine .done _ ?_
      rw [← legacyWords_eq, ← keywords_none legacyTable_good]
      with_unfolding_all rfl

/-! ## C48: cv and reference qualifiers -/

/-- The qualifier keywords. -/
def cvWords : List String := ["const", "volatile"]

/-- **C48.** For every text made of cv-qualifier keywords (any order, repetition
and blanks) followed by `rest`, the parser leaves `rest` and returns exactly the
set of qualifiers written. -/
theorem cv_spec {ws : List String} {s rest : Input} (h : Written cvWords ws s rest) :
    parseCv s = .ok rest ⟨ws.contains "const", ws.contains "volatile"⟩ := by
  have h' : Written (cvTable.map (·.1)) ws s rest := h
  have hw := written_words h
  have hm := many0_written cvTable_good h'
  simp only [parseCv, P.bind_run, hm, P.pure_run, Res.ok.injEq, true_and]
  have key : ∀ (l : List String), (∀ w ∈ l, w ∈ cvWords) → ∀ acc : CV,
      (l.filterMap (valueOf cvTable)).foldl CV.or acc =
        ⟨acc.isConst || l.contains "const", acc.isVolatile || l.contains "volatile"⟩ := by
    intro l
    induction l with
    | nil => intro _ acc; cases acc; simp
    | cons w l ih =>
      intro hl acc
      have hwm := hl w (by simp)
      have ih' := ih (fun w' h => hl w' (by simp [h]))
      simp only [cvWords, List.mem_cons, List.not_mem_nil, or_false] at hwm
      rcases hwm with rfl | rfl
      · have hv : valueOf cvTable "const" = some ⟨true, false⟩ := by decide +kernel
        have hne : ("volatile" == "const") = false := by decide +kernel
        simp only [List.filterMap_cons, hv, List.foldl_cons, ih', CV.or, List.contains_cons]
        simp [hne]
      · have hv : valueOf cvTable "volatile" = some ⟨false, true⟩ := by decide +kernel
        have hne : ("const" == "volatile") = false := by decide +kernel
        simp only [List.filterMap_cons, hv, List.foldl_cons, ih', CV.or, List.contains_cons]
        simp [hne]
  rw [key ws hw]
  simp [CV.none]

/-- **C48.** Every input can be read this way: it starts with some (possibly no)
qualifiers. -/
theorem cv_total (s : Input) : ∃ ws rest, Written cvWords ws s rest :=
  written_total cvTable_good s

/-- **C48.** The displayed cv-qualifiers parse back. -/
theorem cv_display_parses (c : CV) : parseCv c.show = .ok [] c := by
  obtain ⟨_ | _, _ | _⟩ := c <;> with_unfolding_all rfl

theorem many0_amp (n : ℕ) (rest : Input) (hr : ∀ t, rest ≠ '&' :: t) :
    P.many0 (P.char '&') (List.replicate n '&' ++ rest) = .ok rest (List.replicate n ()) := by
  induction n with
  | zero =>
    rw [P.many0_run]
    cases rest with
    | nil => rfl
    | cons c t =>
      have : c ≠ '&' := fun h => hr t (h ▸ rfl)
      simp [P.char, this]
  | succ n ih =>
    rw [P.many0_run]
    simp only [List.replicate_succ, List.cons_append, P.char, if_true, ih, List.length_cons]
    rw [if_pos (by omega)]

/-- **C48.** Reference qualifiers: no, one or two `&` are read as no, an lvalue or
an rvalue reference; three or more are rejected. -/
theorem reference_spec (n : ℕ) (rest : Input) (hr : ∀ t, rest ≠ '&' :: t) :
    parseReference (List.replicate n '&' ++ rest) =
      if n = 0 then .ok rest .none else if n = 1 then .ok rest .lvalue
      else if n = 2 then .ok rest .rvalue else .err := by
  simp only [parseReference, P.mapOpt, P.bind_run, many0_amp n rest hr, List.length_replicate]
  rcases n with _ | _ | _ | n <;> simp [P.pure, P.fail]

/-- **C48.** The displayed reference qualifier parses back. -/
theorem reference_display_parses (r : Ref) : parseReference r.show = .ok [] r := by
  cases r
  · exact reference_spec 0 [] (by simp)
  · exact reference_spec 1 [] (by simp)
  · exact reference_spec 2 [] (by simp)

example : parseCv "volatile const volatile x".toList = .ok ['x'] ⟨true, true⟩ := by
  with_unfolding_all rfl
example : parseCv "constant".toList = .ok "constant".toList ⟨false, false⟩ := by
  with_unfolding_all rfl
example : parseReference "&&&".toList = .err := by with_unfolding_all rfl

end Verif.Cpp
