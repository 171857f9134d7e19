/-
C79 continued: which JSON values have a text at all.
-/
import Verif.Trace.JsonText

set_option autoImplicit false
set_option linter.unusedVariables false
set_option linter.unusedSimpArgs false
set_option linter.unusedSectionVars false

namespace Verif.Trace.Ctf.Text

open Verif.Trace.Ctf

variable {F : Type}

/-! ## Specification -/

mutual
/-- Levels of arrays and objects of a value -/
def nesting : Json F → Nat
  | .arr l => nestingItems l + 1
  | .obj l => nestingEntries l + 1
  | _ => 0
def nestingItems : List (Json F) → Nat
  | [] => 0
  | j :: l => max (nesting j) (nestingItems l)
def nestingEntries : List (String × Json F) → Nat
  | [] => 0
  | (_, j) :: l => max (nesting j) (nestingEntries l)
end

mutual
/-- Numbers that occur in a value -/
def numbers : Json F → List (Num F)
  | .num n => [n]
  | .arr l => numbersItems l
  | .obj l => numbersEntries l
  | _ => []
def numbersItems : List (Json F) → List (Num F)
  | [] => []
  | j :: l => numbers j ++ numbersItems l
def numbersEntries : List (String × Json F) → List (Num F)
  | [] => []
  | (_, j) :: l => numbers j ++ numbersEntries l
end

/-! ## Proofs -/

theorem hex_exists (n : Nat) (h : n < 16) : ∃ c, Hex c n := by
  have : ∃ c, hexVal c = some n := by
    have hs : ∀ n < 16, ((['0','1','2','3','4','5','6','7','8','9','a','b','c','d','e','f'] : List Char)[n]?.bind hexVal) = some n := by decide
    have := hs n h
    obtain ⟨c, _, hc⟩ := Option.bind_eq_some_iff.1 this
    exact ⟨c, hc⟩
  obtain ⟨c, hc⟩ := this
  exact ⟨c, (hexVal_iff c n).1 hc⟩

theorem hex4_exists (n : Nat) (h : n < 65536) : ∃ u, Hex4 u n := by
  obtain ⟨a, ha⟩ := hex_exists (n / 4096) (by omega)
  obtain ⟨b, hb⟩ := hex_exists (n / 256 % 16) (by omega)
  obtain ⟨c, hc⟩ := hex_exists (n / 16 % 16) (by omega)
  obtain ⟨d, hd⟩ := hex_exists (n % 16) (by omega)
  have := Hex4.mk a b c d _ _ _ _ ha hb hc hd
  have e : 16 ^ 3 * (n / 4096) + 16 ^ 2 * (n / 256 % 16) + 16 * (n / 16 % 16) + n % 16 = n := by omega
  rw [e] at this
  exact ⟨_, this⟩

theorem body_exists (s : List Char) : ∃ b, Body s b := by
  induction s with
  | nil => exact ⟨[], .nil⟩
  | cons c s ih =>
    obtain ⟨b, hb⟩ := ih
    by_cases h1 : c.toNat < 0x20
    · obtain ⟨u, hu⟩ := hex4_exists c.toNat (by omega)
      exact ⟨_, .code u c s b hu hb⟩
    · by_cases h2 : c = '"'
      · subst h2; exact ⟨_, .escape '"' '"' s b (by simp [escapes]) hb⟩
      · by_cases h3 : c = '\\'
        · subst h3; exact ⟨_, .escape '\\' '\\' s b (by simp [escapes]) hb⟩
        · exact ⟨_, .plain c s b h2 h3 (by omega) hb⟩

theorem str_exists (s : String) : ∃ u, StrText s u := by
  obtain ⟨b, hb⟩ := body_exists s.toList
  have := StrText.mk _ b hb
  rw [String.ofList_toList] at this
  exact ⟨_, this⟩

variable {dec : List Char → Option F}

theorem val_exists (j : Json F) : ∀ (d : Nat) (hn : ∀ n ∈ numbers j, ∃ u, NumText dec n u) (hd : nesting j ≤ d), ∃ u, Val dec d j u := by
  have b : Blank [] := by simp [Blank]
  refine @Json.rec F
    (fun j => ∀ (d : Nat) (hn : ∀ n ∈ numbers j, ∃ u, NumText dec n u) (hd : nesting j ≤ d), ∃ u, Val dec d j u)
    (fun l => ∀ (d : Nat) (hn : ∀ n ∈ numbersItems l, ∃ u, NumText dec n u) (hd : nestingItems l ≤ d), l ≠ [] → ∃ u, Items dec d l u)
    (fun l => ∀ (d : Nat) (hn : ∀ n ∈ numbersEntries l, ∃ u, NumText dec n u) (hd : nestingEntries l ≤ d), l ≠ [] → ∃ u, Members dec d l u)
    (fun p => ∀ (d : Nat) (hn : ∀ n ∈ numbers p.2, ∃ u, NumText dec n u) (hd : nesting p.2 ≤ d), ∃ u, Val dec d p.2 u)
    ?_ ?_ ?_ ?_ ?_ ?_ ?_ ?_ ?_ ?_ ?_ j
  · intro d _ _; exact ⟨_, .null d⟩
  · intro x d _ _
    cases x
    · exact ⟨_, .false d⟩
    · exact ⟨_, .true d⟩
  · intro n d hn _
    obtain ⟨u, hu⟩ := hn n (by simp [numbers])
    exact ⟨u, .num d n u hu⟩
  · intro s d _ _
    obtain ⟨u, hu⟩ := str_exists s
    exact ⟨u, .str d s u hu⟩
  · intro l ih d hn hd
    rw [nesting] at hd
    rw [numbers] at hn
    obtain ⟨k, rfl⟩ : ∃ k, d = k + 1 := ⟨d - 1, by omega⟩
    by_cases hl : l = []
    · subst hl; exact ⟨_, .arr0 k [] b⟩
    · obtain ⟨v, hv⟩ := ih k hn (by omega) hl
      exact ⟨_, .arr k _ v hv⟩
  · intro l ih d hn hd
    rw [nesting] at hd
    rw [numbers] at hn
    obtain ⟨k, rfl⟩ : ∃ k, d = k + 1 := ⟨d - 1, by omega⟩
    by_cases hl : l = []
    · subst hl; exact ⟨_, .obj0 k [] b⟩
    · obtain ⟨v, hv⟩ := ih k hn (by omega) hl
      exact ⟨_, .obj k _ v hv⟩
  · intro d _ _ h; exact absurd rfl h
  · intro j l ihj ihl d hn hd _
    rw [numbersItems] at hn
    rw [nestingItems] at hd
    obtain ⟨u, hu⟩ := ihj d (fun n h => hn n (by simp [h])) (by omega)
    by_cases hl : l = []
    · subst hl; exact ⟨_, .one d j [] u [] b hu b⟩
    · obtain ⟨v, hv⟩ := ihl d (fun n h => hn n (by simp [h])) (by omega) hl
      exact ⟨_, .cons d j _ [] u [] v b hu b hv⟩
  · intro d _ _ h; exact absurd rfl h
  · rintro ⟨s, j⟩ l ihj ihl d hn hd _
    rw [numbersEntries] at hn
    rw [nestingEntries] at hd
    obtain ⟨u, hu⟩ := ihj d (fun n h => hn n (by simp [h])) (by simp; omega)
    obtain ⟨k, hk⟩ := str_exists s
    by_cases hl : l = []
    · subst hl; exact ⟨_, .one d s j [] k [] [] u [] b hk b b hu b⟩
    · obtain ⟨v, hv⟩ := ihl d (fun n h => hn n (by simp [h])) (by omega) hl
      exact ⟨_, .cons d s j _ [] k [] [] u [] v b hk b b hu b hv⟩
  · intro s j ih; exact ih

mutual
theorem val_limits {d : Nat} {j : Json F} {u : List Char} (h : Val dec d j u) :
    nesting j ≤ d ∧ ∀ n ∈ numbers j, ∃ u, NumText dec n u := by
  cases h with
  | null => simp [nesting, numbers]
  | true => simp [nesting, numbers]
  | false => simp [nesting, numbers]
  | num _ n _ h => simp [nesting, numbers]; exact ⟨_, h⟩
  | str => simp [nesting, numbers]
  | arr0 => simp [nesting, numbers, nestingItems, numbersItems]
  | arr d l v h =>
    have := items_limits h
    rw [nesting, numbers]
    exact ⟨by omega, this.2⟩
  | obj0 => simp [nesting, numbers, nestingEntries, numbersEntries]
  | obj d l v h =>
    have := members_limits h
    rw [nesting, numbers]
    exact ⟨by omega, this.2⟩

theorem items_limits {d : Nat} {l : List (Json F)} {v : List Char} (h : Items dec d l v) :
    nestingItems l ≤ d ∧ ∀ n ∈ numbersItems l, ∃ u, NumText dec n u := by
  cases h with
  | one _ j w u w' hw h hw' =>
    have := val_limits h
    simp only [nestingItems, numbersItems, List.append_nil]
    exact ⟨by omega, this.2⟩
  | cons _ j l w u w' v hw h hw' hl =>
    have h1 := val_limits h
    have h2 := items_limits hl
    simp only [nestingItems, numbersItems, List.mem_append]
    exact ⟨by omega, fun n hn => hn.elim (h1.2 n) (h2.2 n)⟩

theorem members_limits {d : Nat} {l : Entries F} {v : List Char} (h : Members dec d l v) :
    nestingEntries l ≤ d ∧ ∀ n ∈ numbersEntries l, ∃ u, NumText dec n u := by
  cases h with
  | one _ k j w ku w1 w2 u w' hw hk hw1 hw2 h hw' =>
    have := val_limits h
    simp only [nestingEntries, numbersEntries, List.append_nil]
    exact ⟨by omega, this.2⟩
  | cons _ k j l w ku w1 w2 u w' v hw hk hw1 hw2 h hw' hl =>
    have h1 := val_limits h
    have h2 := members_limits hl
    simp only [nestingEntries, numbersEntries, List.mem_append]
    exact ⟨by omega, fun n hn => hn.elim (h1.2 n) (h2.2 n)⟩
end

/-- C79: the values that files can give: those that are at most 127 levels deep and whose numbers can be written. -/
theorem c79_values (dec : List Char → Option F) (j : Json F) :
    (∃ t, parse dec t = some j) ↔ nesting j ≤ 127 ∧ ∀ n ∈ numbers j, ∃ u, NumText dec n u := by
  constructor
  · rintro ⟨t, h⟩
    rw [c79_reads] at h
    obtain ⟨w, u, w', hw, hu, hw', rfl⟩ := h
    exact val_limits hu
  · rintro ⟨hd, hn⟩
    obtain ⟨u, hu⟩ := val_exists j 127 hn hd
    exact ⟨u, (c79_reads dec u j).2 ⟨[], u, [], by simp [Blank], hu, by simp [Blank], by simp⟩⟩

/-! ## Which numbers can be written -/

theorem numeral_snoc (ds : List Char) (c : Char) : numeral (ds ++ [c]) = 10 * numeral ds + (c.toNat - '0'.toNat) := by
  induction ds with
  | nil => simp [numeral]
  | cons d ds ih =>
    simp only [List.cons_append, numeral, ih, List.length_append, List.length_singleton, pow_succ]
    ring

theorem digit_exists (n : Nat) (h : n < 10) : ∃ c : Char, ('0' ≤ c ∧ c ≤ '9') ∧ c.toNat - '0'.toNat = n ∧ (n ≠ 0 → '1' ≤ c) := by
  have hs : ∀ n < 10, ∃ c ∈ ['0','1','2','3','4','5','6','7','8','9'], ('0' ≤ c ∧ c ≤ '9') ∧ c.toNat - '0'.toNat = n ∧ (n ≠ 0 → '1' ≤ c) := by
    decide
  obtain ⟨c, _, hc⟩ := hs n h
  exact ⟨c, hc⟩

theorem int_exists (n : Nat) : ∃ i, IsInt i ∧ numeral i = n := by
  induction n using Nat.strongRecOn with
  | ind n ih =>
    by_cases h0 : n = 0
    · subst h0; exact ⟨['0'], .zero, rfl⟩
    · obtain ⟨c, hc, hv, hp⟩ := digit_exists (n % 10) (by omega)
      by_cases h1 : n < 10
      · refine ⟨[c], .pos c [] ⟨hp (by omega), hc.2⟩ (by simp [Digits]), ?_⟩
        simp [numeral] at hv ⊢; omega
      · obtain ⟨i, hi, hn⟩ := ih (n / 10) (by omega)
        refine ⟨i ++ [c], ?_, by rw [numeral_snoc, hn, hv]; omega⟩
        cases hi with
        | zero => simp [numeral] at hn; omega
        | pos d ds hd h =>
          refine .pos d (ds ++ [c]) hd ?_
          intro x hx
          rcases List.mem_append.1 hx with hx | hx
          · exact h x hx
          · simp at hx; rw [hx]; exact hc

/-- C79: integers can be written exactly if they fit in 64 bits (unsigned, or signed and negative). -/
theorem c79_integers (dec : List Char → Option F) (n : Nat) :
    ((∃ u, NumText dec (.nat n) u) ↔ n < 2 ^ 64) ∧ ((∃ u, NumText dec (.neg n) u) ↔ n < 2 ^ 63) := by
  obtain ⟨i, hi, hn⟩ := int_exists n
  obtain ⟨i', hi', hn'⟩ := int_exists (n + 1)
  refine ⟨⟨?_, ?_⟩, ⟨?_, ?_⟩⟩
  · rintro ⟨u, h⟩
    cases h with
    | nat _ h hb => exact hb
  · intro h
    have := NumText.nat (dec := dec) i hi (by omega)
    rw [hn] at this
    exact ⟨_, this⟩
  · rintro ⟨u, h⟩
    cases h with
    | neg _ _ h hn hb => exact hb
  · intro h
    exact ⟨_, NumText.neg n i' hi' hn' h⟩

/-! ## Examples -/

/-- Conversion of decimal numbers for the examples: the text itself -/
def same (t : List Char) : Option (List Char) := some t

/-- A value as a sequence of tokens, for the examples -/
def tokens : Json (List Char) → List String
  | .null => ["null"]
  | .bool b => [toString b]
  | .num (.nat n) => ["nat", toString n]
  | .num (.neg n) => ["neg", toString n]
  | .num (.float f) => ["float", String.ofList f]
  | .str s => ["str", s]
  | .arr l => "arr" :: tokensItems l
  | .obj l => "obj" :: tokensEntries l
where
  tokensItems : List (Json (List Char)) → List String
    | [] => ["end"]
    | j :: l => tokens j ++ tokensItems l
  tokensEntries : List (String × Json (List Char)) → List String
    | [] => ["end"]
    | (k, j) :: l => k :: tokens j ++ tokensEntries l

example : (parse same " { \"a\\u0062\\n\" : [1, -2 ,3.5e+1,-0, true],\"\":{}}\n".toList).map tokens =
    some ["obj", "ab\n", "arr", "nat", "1", "neg", "1", "float", "3.5e+1", "float", "-0", "true", "end", "", "obj", "end", "end"] := by
  decide +kernel

example : (parse same "\"\\uD83D\\uDE00\"".toList).map tokens = some ["str", "😀"] ∧
    (parse same "\"\\uD83D\"".toList).map tokens = none ∧ (parse same "[1,]".toList).map tokens = none ∧
    (parse same "01".toList).map tokens = none ∧ (parse same "\uFEFF[]".toList).map tokens = none := by
  decide +kernel

/-- Cutting a number is not noticed, which is why `c79_cut` excludes it. -/
example : (parse same "12".toList).map tokens = some ["nat", "12"] ∧ (parse same "1".toList).map tokens = some ["nat", "1"] := by
  decide +kernel

end Verif.Trace.Ctf.Text
