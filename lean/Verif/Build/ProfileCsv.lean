/-
C78: build profiles as CSV files.
Models how units are written (cmakeperf/src/measure/main.rs:35,92,117 with `#[derive(Serialize)]`, output.rs:52-64) and how
profiles are loaded (output.rs:15-35 with `#[derive(Deserialize)]` and the deserializer of `csv` 1.3.1).
Simplifications: paths are valid UTF-8 (others make writing fail); printing and reading of `f32` are parameters.
-/
import Verif.Build.Csv
import Verif.Build.ProfileTable

set_option autoImplicit false
set_option linter.unusedVariables false
set_option linter.unusedSimpArgs false

namespace Verif.Build.ProfileCsv

open Verif.Intern (Name)
open Verif.Build (F32)
open Verif.Build.Csv

/-- `UnitProfile` (output.rs:52-64) -/
abbrev UnitProfile := Verif.Build.ProfileTable.Unit' Name

/-! ## Model: writing -/

/-- `itoa` -/
def printNat (n : Nat) : Text := Nat.toDigits 10 n

/-- Names of the fields of `UnitProfile` once renamed (output.rs:53-63) -/
def header : List Text := ["file".toList, "max_rss".toList, "time".toList]

/-- `#[derive(Serialize)] UnitProfile`: a missing time is an empty field -/
def unitRow (printF : F32 → Text) (u : UnitProfile) : List Text :=
  [u.path, printNat u.rss, (u.time.map printF).getD []]

/-- A `csv::Writer`: whether it wrote the header, and the text so far -/
structure Writer where
  started : Bool
  text : Text

/-- `Writer::serialize` -/
def Writer.serialize (printF : F32 → Text) (w : Writer) (u : UnitProfile) : Writer :=
  ⟨true, w.text ++ (if w.started then [] else writeRow header) ++ writeRow (unitRow printF u)⟩

/-- main.rs:35,92,117: text of the file once these units were reported -/
def writeProfile (printF : F32 → Text) (us : List UnitProfile) : Text :=
  (us.foldl (Writer.serialize printF) ⟨false, []⟩).text

/-! ## Model: loading -/

/-- `char::to_digit` -/
def digitOf (base : Nat) (c : Char) : Option Nat :=
  let d := if '0' ≤ c ∧ c ≤ '9' then some (c.toNat - 48)
    else if 'a' ≤ c ∧ c ≤ 'z' then some (c.toNat - 87)
    else if 'A' ≤ c ∧ c ≤ 'Z' then some (c.toNat - 55)
    else none
  match d with
  | some d => if d < base then some d else none
  | none => none

/-- digits of a `u64`, without overflow -/
def digitsFrom (base : Nat) : Nat → Text → Option Nat
  | acc, [] => some acc
  | acc, c :: s =>
    match digitOf base c with
    | none => none
    | some d => if acc * base + d < 2 ^ 64 then digitsFrom base (acc * base + d) s else none

/-- `u64::from_str_radix` -/
def fromRadix (base : Nat) (s : Text) : Option Nat :=
  match s with
  | [] => none
  | '+' :: [] => none
  | '+' :: s => digitsFrom base 0 s
  | s => digitsFrom base 0 s

/-- `csv` deserialization of an `u64` -/
def readU64 (s : Text) : Option Nat :=
  match s with
  | '0' :: 'x' :: h => fromRadix 16 h
  | s => fromRadix 10 s

/-- The fields seen so far by the `Visitor` of `UnitProfile` -/
structure Slots where
  file : Option Name := none
  rss : Option Nat := none
  time : Option (Option F32) := none

/-- One column: names are compared with those of the fields; a field seen twice is an error, other columns are skipped -/
def visitColumn (parseF : Text → Option F32) (sl : Slots) (name value : Text) : Option Slots :=
  if name = "file".toList then
    match sl.file with
    | some _ => none
    | none => some { sl with file := some value }
  else if name = "max_rss".toList then
    match sl.rss with
    | some _ => none
    | none => (readU64 value).map fun n => { sl with rss := some n }
  else if name = "time".toList then
    match sl.time with
    | some _ => none
    | none => if value = [] then some { sl with time := some none } else (parseF value).map fun x => { sl with time := some (some x) }
  else some sl

def visitColumns (parseF : Text → Option F32) : Slots → List Text → List Text → Option Slots
  | sl, name :: names, value :: values => (visitColumn parseF sl name value).bind fun sl => visitColumns parseF sl names values
  | sl, _, _ => some sl

/-- `#[derive(Deserialize)] UnitProfile` from a record -/
def readUnit (parseF : Text → Option F32) (names values : List Text) : Option UnitProfile :=
  match visitColumns parseF {} names values with
  | none => none
  | some sl =>
    match sl.file, sl.rss with
    | some p, some n => some ⟨p, n, sl.time.getD none⟩
    | _, _ => none

/-- records after the header: each must have as many fields as the header -/
def readUnits (parseF : Text → Option F32) (names : List Text) : List (List Text) → Option (List UnitProfile)
  | [] => some []
  | r :: rs =>
    if r.length = names.length then
      (readUnit parseF names r).bind fun u => (readUnits parseF names rs).map fun us => u :: us
    else none

/-- output.rs:15-35 `load`, on the text of the file -/
def load (parseF : Text → Option F32) (s : Text) : Option (List UnitProfile) :=
  match readRows s with
  | [] => some []
  | names :: rows => readUnits parseF names rows

/-! ## Specification -/

/-- The character `c` is the digit `d` of this base: `0` to `9`, then letters of either case. -/
def IsDigit (base : Nat) (c : Char) (d : Nat) : Prop :=
  d < base ∧ ((d < 10 ∧ c.toNat = '0'.toNat + d) ∨
    (10 ≤ d ∧ d < 36 ∧ (c.toNat = 'a'.toNat + (d - 10) ∨ c.toNat = 'A'.toNat + (d - 10))))

/-- `ds` writes the number `n` in this base, most significant digit first. -/
inductive Digits (base : Nat) : Text → Nat → Prop where
  | one (c : Char) (d : Nat) : IsDigit base c d → Digits base [c] d
  | snoc (ds : Text) (n : Nat) (c : Char) (d : Nat) : Digits base ds n → IsDigit base c d → Digits base (ds ++ [c]) (n * base + d)

/-- `s` writes the memory usage `n`: in decimal, or in hexadecimal after `0x`, possibly with a sign `+`. -/
def WritesU64 (s : Text) (n : Nat) : Prop :=
  n < 2 ^ 64 ∧ ∃ base pre sign ds, s = pre ++ sign ++ ds ∧ ((pre = [] ∧ base = 10) ∨ (pre = "0x".toList ∧ base = 16)) ∧
    (sign = [] ∨ sign = ['+']) ∧ Digits base ds n

/-- The values in the columns of this name. -/
def column (names values : List Text) (name : String) : List Text :=
  ((names.zip values).filter fun c => c.1 == name.toList).map Prod.snd

/-- A record describes a unit: one column gives its file, one its memory usage, and at most one its time. -/
def Describes (parseF : Text → Option F32) (names values : List Text) (u : UnitProfile) : Prop :=
  column names values "file" = [u.path] ∧
  (∃ s, column names values "max_rss" = [s] ∧ WritesU64 s u.rss) ∧
  ((u.time = none ∧ (column names values "time" = [] ∨ column names values "time" = [[]])) ∨
    ∃ s x, column names values "time" = [s] ∧ s ≠ [] ∧ parseF s = some x ∧ u.time = some x)

/-- A profile is what the records of its file describe: the first one names the columns, and all have the same length. -/
def IsProfile (parseF : Text → Option F32) (rows : List (List Text)) (us : List UnitProfile) : Prop :=
  (rows = [] ∧ us = []) ∨
  ∃ names values, rows = names :: values ∧ (∀ r ∈ values, r.length = names.length) ∧
    List.Forall₂ (Describes parseF names) values us

/-! ## Proofs: numbers -/

theorem digitOf_iff (base : Nat) (c : Char) (d : Nat) : digitOf base c = some d ↔ IsDigit base c d := by
  have e0 : ('0' : Char).toNat = 48 := rfl
  have e1 : ('a' : Char).toNat = 97 := rfl
  have e2 : ('A' : Char).toNat = 65 := rfl
  have c1 : ('0' ≤ c ∧ c ≤ '9') ↔ (48 ≤ c.toNat ∧ c.toNat ≤ 57) := Iff.rfl
  have c2 : ('a' ≤ c ∧ c ≤ 'z') ↔ (97 ≤ c.toNat ∧ c.toNat ≤ 122) := Iff.rfl
  have c3 : ('A' ≤ c ∧ c ≤ 'Z') ↔ (65 ≤ c.toNat ∧ c.toNat ≤ 90) := Iff.rfl
  unfold digitOf IsDigit
  rw [e0, e1, e2]
  simp only [c1, c2, c3]
  generalize c.toNat = m
  by_cases h1 : 48 ≤ m ∧ m ≤ 57
  · simp only [if_pos h1]
    by_cases h : m - 48 < base
    · simp only [if_pos h, Option.some.injEq]; omega
    · simp only [if_neg h, reduceCtorEq, false_iff]; omega
  · by_cases h2 : 97 ≤ m ∧ m ≤ 122
    · simp only [if_neg h1, if_pos h2]
      by_cases h : m - 87 < base
      · simp only [if_pos h, Option.some.injEq]; omega
      · simp only [if_neg h, reduceCtorEq, false_iff]; omega
    · by_cases h3 : 65 ≤ m ∧ m ≤ 90
      · simp only [if_neg h1, if_neg h2, if_pos h3]
        by_cases h : m - 55 < base
        · simp only [if_pos h, Option.some.injEq]; omega
        · simp only [if_neg h, reduceCtorEq, false_iff]; omega
      · simp only [if_neg h1, if_neg h2, if_neg h3, reduceCtorEq, false_iff]; omega

theorem digits_from (base : Nat) (s : Text) : ∀ acc n, digitsFrom base acc s = some n → acc < 2 ^ 64 → n < 2 ^ 64 ∧
    ∀ ds, Digits base ds acc → Digits base (ds ++ s) n := by
  induction s with
  | nil => intro acc n h ha; simp only [digitsFrom, Option.some.injEq] at h; subst h; exact ⟨ha, fun ds h => by simpa using h⟩
  | cons c s ih =>
    intro acc n h ha
    simp only [digitsFrom] at h
    cases hd : digitOf base c with
    | none => rw [hd] at h; cases h
    | some d =>
      rw [hd] at h
      simp only at h
      split at h
      · rename_i hlt
        obtain ⟨h1, h2⟩ := ih _ n h hlt
        refine ⟨h1, fun ds hds => ?_⟩
        have := h2 _ (.snoc ds acc c d hds ((digitOf_iff base c d).1 hd))
        simpa using this
      · cases h

theorem digits_snoc_eq (base : Nat) (s : Text) (c : Char) : ∀ acc, digitsFrom base acc (s ++ [c]) =
    (digitsFrom base acc s).bind fun n => digitsFrom base n [c] := by
  induction s with
  | nil => intro acc; rfl
  | cons a s ih =>
    intro acc
    simp only [List.cons_append, digitsFrom]
    cases digitOf base a with
    | none => rfl
    | some d =>
      simp only
      split
      · rw [ih]; rfl
      · rfl

theorem digits_ne {base : Nat} {ds : Text} {n : Nat} (h : Digits base ds n) : ds ≠ [] := by
  cases h <;> simp

theorem digits_read {base : Nat} (hb : 0 < base) {ds : Text} {n : Nat} (h : Digits base ds n) : n < 2 ^ 64 → digitsFrom base 0 ds = some n := by
  induction h with
  | one c d hd => intro hn; simp only [digitsFrom, (digitOf_iff base c d).2 hd, Nat.zero_mul, Nat.zero_add, hn, if_true]
  | snoc ds n c d hds hd ih =>
    intro hn
    have : n ≤ n * base := Nat.le_mul_of_pos_right n hb
    rw [digits_snoc_eq, ih (by omega)]
    simp only [Option.bind_some, digitsFrom, (digitOf_iff base c d).2 hd, hn, if_true]

theorem digits_iff {base : Nat} (hb : 0 < base) (s : Text) (n : Nat) :
    (s ≠ [] ∧ digitsFrom base 0 s = some n) ↔ n < 2 ^ 64 ∧ Digits base s n := by
  constructor
  · rintro ⟨hne, h⟩
    cases s with
    | nil => exact absurd rfl hne
    | cons c s =>
      simp only [digitsFrom] at h
      cases hd : digitOf base c with
      | none => rw [hd] at h; cases h
      | some d =>
        rw [hd] at h
        simp only [Nat.zero_mul, Nat.zero_add] at h
        split at h
        · rename_i hlt
          obtain ⟨h1, h2⟩ := digits_from base s d n h hlt
          exact ⟨h1, h2 [c] (.one c d ((digitOf_iff base c d).1 hd))⟩
        · cases h
  · rintro ⟨hn, h⟩
    exact ⟨digits_ne h, digits_read hb h hn⟩

theorem digits_first {base : Nat} {ds : Text} {n : Nat} (h : Digits base ds n) : ∃ c r d, ds = c :: r ∧ digitOf base c = some d := by
  induction h with
  | one c d hd => exact ⟨c, [], d, rfl, (digitOf_iff base c d).2 hd⟩
  | snoc ds n c d _ hd ih =>
    obtain ⟨c', r, d', rfl, h'⟩ := ih
    exact ⟨c', r ++ [c], d', rfl, h'⟩

theorem plus_digit (base : Nat) : digitOf base '+' = none := by
  unfold digitOf
  simp only [show ¬ ('0' ≤ '+' ∧ '+' ≤ '9') by decide, show ¬ ('a' ≤ '+' ∧ '+' ≤ 'z') by decide,
    show ¬ ('A' ≤ '+' ∧ '+' ≤ 'Z') by decide, if_false]

theorem fromRadix_iff {base : Nat} (hb : 0 < base) (s : Text) (n : Nat) : fromRadix base s = some n ↔
    n < 2 ^ 64 ∧ ∃ sign ds, s = sign ++ ds ∧ (sign = [] ∨ sign = ['+']) ∧ Digits base ds n := by
  have key := fun t => digits_iff hb t n
  constructor
  · intro h
    unfold fromRadix at h
    split at h
    · cases h
    · cases h
    · rename_i t hne
      have hne' : t ≠ [] := fun e => hne e
      obtain ⟨h1, h2⟩ := (key t).1 ⟨hne', h⟩
      exact ⟨h1, ['+'], t, rfl, .inr rfl, h2⟩
    · rename_i h0 h1 h2
      obtain ⟨h3, h4⟩ := (key s).1 ⟨h0, h⟩
      exact ⟨h3, [], s, rfl, .inl rfl, h4⟩
  · rintro ⟨hn, sign, ds, rfl, hs, hd⟩
    obtain ⟨hne, hr⟩ := (key ds).2 ⟨hn, hd⟩
    rcases hs with rfl | rfl
    · obtain ⟨c, r, d, rfl, hc⟩ := digits_first hd
      rw [List.nil_append]
      unfold fromRadix
      split
      · rename_i e; cases e
      · rename_i e; cases e; rw [plus_digit] at hc; cases hc
      · rename_i e; cases e; rw [plus_digit] at hc; cases hc
      · exact hr
    · cases ds with
      | nil => exact absurd rfl hne
      | cons c r => exact hr

/-- Numbers are read as specified. -/
theorem readU64_iff (s : Text) (n : Nat) : readU64 s = some n ↔ WritesU64 s n := by
  have hx : digitOf 10 'x' = none := by decide
  unfold readU64
  split
  · rename_i h
    rw [fromRadix_iff (by omega)]
    constructor
    · rintro ⟨hn, sign, ds, e, hs, hd⟩
      exact ⟨hn, 16, "0x".toList, sign, ds, by rw [e]; simp, .inr ⟨rfl, rfl⟩, hs, hd⟩
    · rintro ⟨hn, base, pre, sign, ds, e, hb, hs, hd⟩
      rcases hb with ⟨rfl, rfl⟩ | ⟨rfl, rfl⟩
      · exfalso
        rw [List.nil_append] at e
        have hall : ∀ (ds : Text) (n : Nat), Digits 10 ds n → ∀ c ∈ ds, digitOf 10 c ≠ none := by
          intro ds n h
          induction h with
          | one c d hd => intro x hx; rw [List.mem_singleton] at hx; rw [hx, (digitOf_iff 10 c d).2 hd]; simp
          | snoc ds n c d _ hd ih =>
            intro x hx
            rw [List.mem_append, List.mem_singleton] at hx
            rcases hx with hx | rfl
            · exact ih x hx
            · rw [(digitOf_iff 10 x d).2 hd]; simp
        have hm : 'x' ∈ ds := by
          rcases hs with rfl | rfl
          · rw [List.nil_append] at e; rw [← e]; simp
          · simp at e
        exact hall ds n hd 'x' hm hx
      · refine ⟨hn, sign, ds, ?_, hs, hd⟩
        simpa using e
  · rename_i hno
    rw [fromRadix_iff (by omega)]
    constructor
    · rintro ⟨hn, sign, ds, e, hs, hd⟩
      exact ⟨hn, 10, [], sign, ds, by simpa using e, .inl ⟨rfl, rfl⟩, hs, hd⟩
    · rintro ⟨hn, base, pre, sign, ds, e, hb, hs, hd⟩
      rcases hb with ⟨rfl, rfl⟩ | ⟨rfl, rfl⟩
      · exact ⟨hn, sign, ds, by simpa using e, hs, hd⟩
      · exact absurd (by rw [e]; simp) (hno (sign ++ ds))

/-! ## Proofs: records -/

theorem column_cons (n v : Text) (ns vs : List Text) (name : String) : column (n :: ns) (v :: vs) name =
    if n = name.toList then v :: column ns vs name else column ns vs name := by
  unfold column
  rw [List.zip_cons_cons, List.filter_cons]
  by_cases h : n = name.toList
  · simp [h]
  · simp [h]

/-- A time column -/
def readTime (parseF : Text → Option F32) (value : Text) : Option (Option F32) :=
  if value = [] then some none else (parseF value).map some

theorem visit_iff (parseF : Text → Option F32) (names : List Text) : ∀ (values : List Text) (sl sl' : Slots),
    visitColumns parseF sl names values = some sl' ↔
      sl'.file.toList = sl.file.toList ++ column names values "file" ∧
      (∃ ns, List.Forall₂ (fun s n => readU64 s = some n) (column names values "max_rss") ns ∧ sl'.rss.toList = sl.rss.toList ++ ns) ∧
      (∃ ts, List.Forall₂ (fun s t => readTime parseF s = some t) (column names values "time") ts ∧
        sl'.time.toList = sl.time.toList ++ ts) := by
  have tl : ∀ {α : Type} (a b : Option α), a.toList = b.toList → a = b := by
    intro α a b h; cases a <;> cases b <;> simp at h ⊢; exact h
  have base : ∀ (sl sl' : Slots), some sl = some sl' ↔ sl'.file.toList = sl.file.toList ++ [] ∧
      (∃ ns, List.Forall₂ (fun s n => readU64 s = some n) [] ns ∧ sl'.rss.toList = sl.rss.toList ++ ns) ∧
      (∃ ts, List.Forall₂ (fun s t => readTime parseF s = some t) [] ts ∧ sl'.time.toList = sl.time.toList ++ ts) := by
    intro sl sl'
    constructor
    · intro h; cases h; exact ⟨by simp, ⟨[], .nil, by simp⟩, [], .nil, by simp⟩
    · rintro ⟨h1, ⟨ns, hn, h2⟩, ts, ht, h3⟩
      cases hn; cases ht
      rw [List.append_nil] at h1 h2 h3
      obtain ⟨a, b, c⟩ := sl
      obtain ⟨a', b', c'⟩ := sl'
      simp only at h1 h2 h3
      rw [tl _ _ h1, tl _ _ h2, tl _ _ h3]
  induction names with
  | nil => intro values sl sl'; simp only [visitColumns, column, List.zip_nil_left, List.filter_nil, List.map_nil]; exact base sl sl'
  | cons n names ih =>
    intro values sl sl'
    cases values with
    | nil => simp only [visitColumns, column, List.zip_nil_right, List.filter_nil, List.map_nil]; exact base sl sl'
    | cons v values =>
      have d1 : ("file".toList : Text) ≠ "max_rss".toList := by decide
      have d2 : ("file".toList : Text) ≠ "time".toList := by decide
      have d3 : ("max_rss".toList : Text) ≠ "time".toList := by decide
      simp only [visitColumns, column_cons, visitColumn]
      by_cases h1 : n = "file".toList
      · subst h1
        simp only [if_true, if_neg d1, if_neg d2]
        cases hf : sl.file with
        | some x =>
          simp only [Option.bind_none, reduceCtorEq, Option.toList_some, List.cons_append, List.nil_append, false_iff]
          rintro ⟨h, -⟩
          cases hs : sl'.file <;> rw [hs] at h <;> simp at h
        | none =>
          simp only [Option.bind_some]
          rw [ih]
          simp
      · by_cases h2 : n = "max_rss".toList
        · subst h2
          simp only [if_neg h1, if_true, if_neg d3]
          cases hf : sl.rss with
          | some x =>
            simp only [Option.bind_none, reduceCtorEq, Option.toList_some, List.cons_append, List.nil_append, false_iff]
            rintro ⟨-, ⟨ns, hn, h⟩, -⟩
            cases hn with
            | cons _ _ => cases hs : sl'.rss <;> rw [hs] at h <;> simp at h
          | none =>
            cases hr : readU64 v with
            | none =>
              simp only [Option.map_none, Option.bind_none, reduceCtorEq, false_iff]
              rintro ⟨-, ⟨ns, hn, h⟩, -⟩
              cases hn with
              | cons h' _ => rw [hr] at h'; cases h'
            | some k =>
              simp only [Option.map_some, Option.bind_some]
              rw [ih]
              simp only [Option.toList_some, Option.toList_none, List.nil_append]
              constructor
              · rintro ⟨a1, ⟨ns, hn, a2⟩, a3⟩; exact ⟨a1, ⟨k :: ns, .cons hr hn, a2⟩, a3⟩
              · rintro ⟨a1, ⟨ns, hn, a2⟩, a3⟩
                cases hn with
                | cons h' hn => rw [hr] at h'; cases h'; exact ⟨a1, ⟨_, hn, a2⟩, a3⟩
        · by_cases h3 : n = "time".toList
          · subst h3
            simp only [if_neg h1, if_neg h2, if_true]
            cases hf : sl.time with
            | some x =>
              simp only [Option.bind_none, reduceCtorEq, Option.toList_some, List.cons_append, List.nil_append, false_iff]
              rintro ⟨-, -, ts, hn, h⟩
              cases hn with
              | cons _ _ => cases hs : sl'.time <;> rw [hs] at h <;> simp at h
            | none =>
              have hcol : (if v = [] then some { sl with time := some none }
                  else (parseF v).map fun x => { sl with time := some (some x) }) =
                  (readTime parseF v).map fun t => ({ sl with time := some t } : Slots) := by
                unfold readTime
                split
                · rfl
                · cases parseF v <;> rfl
              simp only
              rw [hcol]
              cases hr : readTime parseF v with
              | none =>
                simp only [Option.map_none, Option.bind_none, reduceCtorEq, false_iff]
                rintro ⟨-, -, ts, hn, h⟩
                cases hn with
                | cons h' _ => rw [hr] at h'; cases h'
              | some k =>
                simp only [Option.map_some, Option.bind_some]
                rw [ih]
                simp only [Option.toList_some, Option.toList_none, List.nil_append]
                constructor
                · rintro ⟨a1, a2, ts, hn, a3⟩; exact ⟨a1, a2, k :: ts, .cons hr hn, a3⟩
                · rintro ⟨a1, a2, ts, hn, a3⟩
                  cases hn with
                  | cons h' hn => rw [hr] at h'; cases h'; exact ⟨a1, a2, _, hn, a3⟩
          · simp only [if_neg h1, if_neg h2, if_neg h3, Option.bind_some]
            exact ih values sl sl'

theorem toList_single {α : Type} {o : Option α} {l : List α} (h : o.toList = l) : (l = [] ∧ o = none) ∨ ∃ a, l = [a] ∧ o = some a := by
  cases o with
  | none => exact .inl ⟨h.symm, rfl⟩
  | some a => exact .inr ⟨a, h.symm, rfl⟩

theorem readTime_some (parseF : Text → Option F32) (s : Text) (t : Option F32) : readTime parseF s = some t ↔
    (s = [] ∧ t = none) ∨ (s ≠ [] ∧ ∃ x, parseF s = some x ∧ t = some x) := by
  by_cases h : s = []
  · subst h; simp [readTime, eq_comm]
  · have : readTime parseF s = (parseF s).map some := by unfold readTime; rw [if_neg h]
    rw [this]
    simp only [Option.map_eq_some_iff, h, false_and, ne_eq, not_false_eq_true, true_and, false_or]
    constructor
    · rintro ⟨x, h1, h2⟩; exact ⟨x, h1, h2.symm⟩
    · rintro ⟨x, h1, h2⟩; exact ⟨x, h1, h2.symm⟩

theorem forall₂_split {α β : Type} {R : α → β → Prop} (a b : List α) : ∀ l, List.Forall₂ R (a ++ b) l →
    ∃ x y, List.Forall₂ R a x ∧ List.Forall₂ R b y ∧ l = x ++ y := by
  induction a with
  | nil => intro l h; exact ⟨[], l, .nil, h, rfl⟩
  | cons c a ih =>
    intro l h
    cases h with
    | cons h1 h2 =>
      obtain ⟨x, y, hx, hy, rfl⟩ := ih _ h2
      exact ⟨_ :: x, y, .cons h1 hx, hy, rfl⟩

/-- Records are read as specified. -/
theorem readUnit_iff (parseF : Text → Option F32) (names values : List Text) (u : UnitProfile) :
    readUnit parseF names values = some u ↔ Describes parseF names values u := by
  have hv := visit_iff parseF names values {}
  simp only [Option.toList_none, List.nil_append] at hv
  unfold readUnit Describes
  constructor
  · intro h
    cases hs : visitColumns parseF {} names values with
    | none => rw [hs] at h; cases h
    | some sl =>
      rw [hs] at h
      simp only at h
      obtain ⟨h1, ⟨ns, hn, h2⟩, ts, ht, h3⟩ := (hv sl).1 hs
      cases hf : sl.file with
      | none => rw [hf] at h; cases h
      | some p =>
        cases hr : sl.rss with
        | none => rw [hf, hr] at h; cases h
        | some n =>
          rw [hf, hr] at h
          simp only [Option.some.injEq] at h
          subst h
          rw [hf] at h1
          rw [hr] at h2
          simp only [Option.toList_some] at h1 h2
          subst h2
          refine ⟨h1.symm, ?_, ?_⟩
          · generalize hc : column names values "max_rss" = col at hn
            cases hn with
            | cons ha hb => cases hb; exact ⟨_, rfl, (readU64_iff _ _).1 ha⟩
          · generalize hc : column names values "time" = col at ht
            rcases toList_single h3 with ⟨rfl, ht0⟩ | ⟨a, rfl, ht0⟩
            · cases ht; rw [ht0]; exact .inl ⟨rfl, .inl rfl⟩
            · rw [ht0]
              cases ht with
              | cons ha hb =>
                cases hb
                rcases (readTime_some parseF _ _).1 ha with ⟨e1, e2⟩ | ⟨e1, x, e2, e3⟩
                · subst e1 e2; exact .inl ⟨rfl, .inr rfl⟩
                · subst e3; exact .inr ⟨_, x, rfl, e1, e2, rfl⟩
  · rintro ⟨h1, ⟨s, h2, hw⟩, h3⟩
    have htime : ∃ t : Option (Option F32), t.getD none = u.time ∧
        List.Forall₂ (fun s t => readTime parseF s = some t) (column names values "time") t.toList := by
      rcases h3 with ⟨e, h | h⟩ | ⟨s, x, h, hne, hp, e⟩
      · exact ⟨none, by rw [e]; rfl, by rw [h]; exact .nil⟩
      · exact ⟨some none, by rw [e]; rfl, by rw [h]; exact .cons ((readTime_some _ _ _).2 (.inl ⟨rfl, rfl⟩)) .nil⟩
      · exact ⟨some (some x), by rw [e]; rfl, by rw [h]; exact .cons ((readTime_some _ _ _).2 (.inr ⟨hne, x, hp, rfl⟩)) .nil⟩
    obtain ⟨t, ht1, ht2⟩ := htime
    have := (hv ⟨some u.path, some u.rss, t⟩).2 ⟨by rw [h1]; rfl, ⟨[u.rss], by rw [h2]; exact .cons ((readU64_iff _ _).2 hw) .nil, rfl⟩,
      t.toList, ht2, rfl⟩
    rw [this]
    simp only [ht1]

theorem readUnits_iff (parseF : Text → Option F32) (names : List Text) (rows : List (List Text)) : ∀ us,
    readUnits parseF names rows = some us ↔ (∀ r ∈ rows, r.length = names.length) ∧ List.Forall₂ (Describes parseF names) rows us := by
  induction rows with
  | nil =>
    intro us
    simp only [readUnits, Option.some.injEq, List.not_mem_nil, false_implies, implies_true, true_and, List.forall₂_nil_left_iff]
    exact eq_comm
  | cons r rows ih =>
    intro us
    simp only [readUnits]
    by_cases hl : r.length = names.length
    · simp only [if_pos hl, Option.bind_eq_some_iff, Option.map_eq_some_iff]
      constructor
      · rintro ⟨u, hu, us', hus, rfl⟩
        obtain ⟨h1, h2⟩ := (ih us').1 hus
        refine ⟨?_, .cons ((readUnit_iff _ _ _ _).1 hu) h2⟩
        intro x hx
        rcases List.mem_cons.1 hx with rfl | hx
        · exact hl
        · exact h1 x hx
      · rintro ⟨h1, h2⟩
        cases h2 with
        | cons ha hb => exact ⟨_, (readUnit_iff _ _ _ _).2 ha, _, (ih _).2 ⟨fun x hx => h1 x (by simp [hx]), hb⟩, rfl⟩
    · simp only [if_neg hl, reduceCtorEq, false_iff]
      rintro ⟨h1, -⟩
      exact hl (h1 r (by simp))

/-- **C78, loading.** A build profile is loaded exactly when the records of its file describe it: the first one names the columns,
of which `file` and `max_rss` are needed, `time` is optional and others are ignored; all records have the same length. -/
theorem c78_load_iff (parseF : Text → Option F32) (s : Text) (us : List UnitProfile) :
    load parseF s = some us ↔ IsProfile parseF (readRows s) us := by
  unfold load IsProfile
  cases hr : readRows s with
  | nil => simp [eq_comm]
  | cons names rows =>
    simp only [reduceCtorEq, false_and, List.cons.injEq, false_or]
    rw [readUnits_iff]
    constructor
    · rintro ⟨h1, h2⟩; exact ⟨names, rows, ⟨rfl, rfl⟩, h1, h2⟩
    · rintro ⟨_, _, ⟨rfl, rfl⟩, h1, h2⟩; exact ⟨h1, h2⟩

/-! ## Round trip -/

/-- Texts of times that are read back. -/
def GoodTimes (printF : F32 → Text) (parseF : Text → Option F32) (us : List UnitProfile) : Prop :=
  ∀ u ∈ us, ∀ x, u.time = some x → printF x ≠ [] ∧ parseF (printF x) = some x

theorem writeProfile_eq (printF : F32 → Text) (us : List UnitProfile) : writeProfile printF us =
    if us = [] then [] else writeRows (header :: us.map (unitRow printF)) := by
  have key : ∀ (us : List UnitProfile) (t : Text), (us.foldl (Writer.serialize printF) ⟨true, t⟩).text =
      t ++ writeRows (us.map (unitRow printF)) := by
    intro us
    induction us with
    | nil => intro t; simp [writeRows]
    | cons u us ih =>
      intro t
      rw [List.foldl_cons]
      simp only [Writer.serialize, if_true, List.append_nil]
      rw [ih]
      simp [writeRows]
  unfold writeProfile
  cases us with
  | nil => simp
  | cons u us =>
    rw [List.foldl_cons]
    simp only [Writer.serialize, Bool.false_eq_true, if_false, reduceCtorEq]
    rw [key]
    simp [writeRows]

theorem printNat_digits (n : Nat) : Digits 10 (printNat n) n := by
  have step : ∀ n, 10 ≤ n → Nat.toDigits 10 n = Nat.toDigits 10 (n / 10) ++ [Nat.digitChar (n % 10)] := by
    intro n h
    exact Nat.toDigits_of_base_le (by omega) h
  have dig : ∀ d, d < 10 → IsDigit 10 (Nat.digitChar d) d := by
    intro d h
    have h' : d = 0 ∨ d = 1 ∨ d = 2 ∨ d = 3 ∨ d = 4 ∨ d = 5 ∨ d = 6 ∨ d = 7 ∨ d = 8 ∨ d = 9 := by omega
    rcases h' with rfl | rfl | rfl | rfl | rfl | rfl | rfl | rfl | rfl | rfl <;> exact (digitOf_iff _ _ _).1 (by decide)
  unfold printNat
  induction n using Nat.strong_induction_on with
  | _ n ih =>
    by_cases h : n < 10
    · rw [Nat.toDigits_of_lt_base h]; exact .one _ n (dig n h)
    · rw [step n (by omega)]
      have := Digits.snoc _ _ _ (n % 10) (ih (n / 10) (by omega)) (dig (n % 10) (by omega))
      rwa [show n / 10 * 10 + n % 10 = n by omega] at this

theorem unit_describes (printF : F32 → Text) (parseF : Text → Option F32) (u : UnitProfile) (h : u.rss < 2 ^ 64)
    (ht : ∀ x, u.time = some x → printF x ≠ [] ∧ parseF (printF x) = some x) :
    Describes parseF header (unitRow printF u) u := by
  have c1 : column header (unitRow printF u) "file" = [u.path] := by
    simp only [header, unitRow, column_cons]; simp [column]
  have c2 : column header (unitRow printF u) "max_rss" = [printNat u.rss] := by
    simp only [header, unitRow, column_cons]; simp [column]
  have c3 : column header (unitRow printF u) "time" = [(u.time.map printF).getD []] := by
    simp only [header, unitRow, column_cons]; simp [column]
  refine ⟨c1, ⟨_, c2, h, 10, [], [], printNat u.rss, rfl, .inl ⟨rfl, rfl⟩, .inl rfl, printNat_digits _⟩, ?_⟩
  rw [c3]
  cases hu : u.time with
  | none => exact .inl ⟨rfl, .inr rfl⟩
  | some x => exact .inr ⟨printF x, x, rfl, (ht x hu).1, (ht x hu).2, rfl⟩

theorem header_bom (rows : List (List Text)) : (writeRows (header :: rows)).head? ≠ some '\uFEFF' := by
  have : writeRows (header :: rows) = 'f' :: ("ile,max_rss,time\n".toList ++ writeRows rows) := rfl
  rw [this]; simp

theorem rows_ne (printF : F32 → Text) (us : List UnitProfile) : ∀ r ∈ header :: us.map (unitRow printF), r ≠ [] := by
  intro r hr
  rcases List.mem_cons.1 hr with rfl | hr
  · simp [header]
  · obtain ⟨u, -, rfl⟩ := List.mem_map.1 hr
    simp [unitRow]

theorem load_rows (parseF : Text → Option F32) (printF : F32 → Text) (us : List UnitProfile) (h : ∀ u ∈ us, u.rss < 2 ^ 64)
    (ht : GoodTimes printF parseF us) : readUnits parseF header (us.map (unitRow printF)) = some us := by
  rw [readUnits_iff]
  constructor
  · intro r hr
    obtain ⟨u, -, rfl⟩ := List.mem_map.1 hr
    rfl
  · rw [List.forall₂_map_left_iff, List.forall₂_same]
    exact fun u hu => unit_describes printF parseF u (h u hu) (ht u hu)

/-- **C78, round trip.** A measured profile that was written is loaded as it was, whatever the paths of its units contain (delimiters,
quotes, line endings), with or without times, and even without any unit. -/
theorem c78_roundtrip (printF : F32 → Text) (parseF : Text → Option F32) (us : List UnitProfile) (h : ∀ u ∈ us, u.rss < 2 ^ 64)
    (ht : GoodTimes printF parseF us) : load parseF (writeProfile printF us) = some us := by
  rw [writeProfile_eq]
  by_cases he : us = []
  · rw [if_pos he, he]; rfl
  · rw [if_neg he]
    unfold load
    rw [c78_records_roundtrip _ (rows_ne printF us) (header_bom _)]
    exact load_rows parseF printF us h ht

/-- **C78, cut files.** If only a beginning of the profile was written (the program was killed, or the disk is full), loading it
either fails, or gives the first units, the last of which may have a wrong time: the one read in a beginning of its text. Paths
and memory usages are always right. -/
theorem c78_prefix (printF : F32 → Text) (parseF : Text → Option F32) (us vs : List UnitProfile) (h : ∀ u ∈ us, u.rss < 2 ^ 64)
    (ht : GoodTimes printF parseF us) (p : Text) (hp : p <+: writeProfile printF us) (hl : load parseF p = some vs) :
    vs <+: us ∨ ∃ done u rest v, us = done ++ u :: rest ∧ vs = done ++ [v] ∧ v.path = u.path ∧ v.rss = u.rss ∧
      ∃ g, g <+: (u.time.map printF).getD [] ∧ ((g = [] ∧ v.time = none) ∨ ∃ x, g ≠ [] ∧ parseF g = some x ∧ v.time = some x) := by
  rw [writeProfile_eq] at hp
  by_cases he : us = []
  · rw [if_pos he, List.prefix_nil] at hp
    rw [hp] at hl
    cases hl
    exact .inl List.nil_prefix
  rw [if_neg he] at hp
  obtain ⟨done, rest, e1, hr⟩ := c78_records_prefix _ (rows_ne printF us) (header_bom _) p hp
  unfold load at hl
  rcases hr with hr | ⟨row, rest', fs, e2, hc, hr⟩
  · rw [hr] at hl
    cases done with
    | nil => cases hl; exact .inl List.nil_prefix
    | cons n done =>
      rw [List.cons_append, List.cons.injEq] at e1
      obtain ⟨rfl, e1⟩ := e1
      obtain ⟨us1, us2, rfl, rfl, -⟩ := List.map_eq_append_iff.1 e1
      simp only at hl
      rw [load_rows parseF printF us1 (fun u hu => h u (by simp [hu])) (fun u hu => ht u (by simp [hu]))] at hl
      cases hl
      exact .inl (List.prefix_append _ _)
  · rw [hr] at hl
    cases done with
    | nil => cases hl; exact .inl List.nil_prefix
    | cons n done =>
      rw [List.cons_append, List.cons.injEq] at e1
      obtain ⟨rfl, e1⟩ := e1
      obtain ⟨us1, us2, rfl, rfl, e3⟩ := List.map_eq_append_iff.1 e1
      rw [e2] at e3
      cases us2 with
      | nil => simp at e3
      | cons u us2 =>
        rw [List.map_cons, List.cons.injEq] at e3
        obtain ⟨rfl, -⟩ := e3
        simp only [List.cons_append] at hl
        obtain ⟨hlen, hall⟩ := (readUnits_iff _ _ _ _).1 hl
        obtain ⟨vs1, vs2, h1, h2, rfl⟩ := forall₂_split _ _ _ hall
        have h1' : vs1 = us1 := by
          have := (readUnits_iff parseF header (us1.map (unitRow printF)) vs1).2 ⟨fun r hr => hlen r (by simp [hr]), h1⟩
          rw [load_rows parseF printF us1 (fun u hu => h u (by simp [hu])) (fun u hu => ht u (by simp [hu]))] at this
          cases this; rfl
        subst h1'
        cases h2 with
        | cons hv hn =>
          cases hn
          rename_i v
          have hfs : fs.length = 3 := hlen fs (by simp)
          obtain ⟨pre, f, post, g, hrow, hg, rfl⟩ := hc
          -- the cut is in the last field
          have hpre : pre.length = 2 := by simpa using hfs
          match pre, hpre with
          | [a, b], _ =>
            simp only [unitRow, List.cons_append, List.nil_append, List.cons.injEq] at hrow
            obtain ⟨rfl, rfl, rfl, -⟩ := hrow
            right
            have hvv : readUnit parseF header ([u.path, printNat u.rss] ++ [g]) = some v := (readUnit_iff _ _ _ _).2 hv
            have c1 : column header ([u.path, printNat u.rss] ++ [g]) "file" = [u.path] := by
              simp only [header, List.cons_append, List.nil_append, column_cons]; simp [column]
            have c2 : column header ([u.path, printNat u.rss] ++ [g]) "max_rss" = [printNat u.rss] := by
              simp only [header, List.cons_append, List.nil_append, column_cons]; simp [column]
            have c3 : column header ([u.path, printNat u.rss] ++ [g]) "time" = [g] := by
              simp only [header, List.cons_append, List.nil_append, column_cons]; simp [column]
            obtain ⟨d1, ⟨s, d2, d3⟩, d4⟩ := hv
            rw [c1] at d1
            rw [c2] at d2
            rw [c3] at d4
            simp only [List.cons.injEq, and_true] at d1 d2
            subst d2
            have hrss : v.rss = u.rss := by
              have e1 := (readU64_iff _ _).2 d3
              have e2 := (readU64_iff (printNat u.rss) u.rss).2
                ⟨h u (by simp), 10, [], [], printNat u.rss, rfl, .inl ⟨rfl, rfl⟩, .inl rfl, printNat_digits _⟩
              rw [e1] at e2; exact Option.some.inj e2
            refine ⟨vs1, u, us2, v, rfl, rfl, d1.symm, hrss, g, hg, ?_⟩
            rcases d4 with ⟨t0, t1 | t1⟩ | ⟨s, x, t1, t2, t3, t4⟩
            · cases t1
            · simp only [List.cons.injEq, and_true] at t1
              exact .inl ⟨t1, t0⟩
            · simp only [List.cons.injEq, and_true] at t1
              subst t1
              exact .inr ⟨x, t2, t3, t4⟩

/-- **C78, limit.** A file that was cut within the text of a time is not always refused: if the beginning of the text can be read
(as in `12.5`, cut after `1`), a wrong time is shown. -/
theorem c78_cut_time_violated (printF : F32 → Text) (parseF : Text → Option F32) (u : UnitProfile) (hr : u.rss < 2 ^ 64) (x y : F32)
    (hx : u.time = some x) (hs : (printF x).any special = false) (g : Text) (hg : g <+: printF x) (hne : g ≠ []) (hy : parseF g = some y) :
    ∃ p, p <+: writeProfile printF [u] ∧ load parseF p = some [⟨u.path, u.rss, some y⟩] := by
  have hgs : g.any special = false := by
    rw [List.any_eq_false] at hs ⊢
    exact fun c hc => hs c (hg.subset hc)
  have hwg : writeField g = g := by unfold writeField; rw [hgs]; rfl
  have hwx : writeField (printF x) = printF x := by unfold writeField; rw [hs]; rfl
  let row : List Text := [u.path, printNat u.rss, g]
  refine ⟨writeRow header ++ writeFields row, ?_, ?_⟩
  · have e : writeProfile printF [u] = writeRow header ++ writeRow (unitRow printF u) := by
      rw [writeProfile_eq]; simp [writeRows]
    obtain ⟨t, ht⟩ := hg
    rw [e]
    refine ⟨t ++ ['\n'], ?_⟩
    have e2 : writeRow (unitRow printF u) = writeField u.path ++ ',' :: (writeField (printNat u.rss) ++ ',' :: printF x) ++ ['\n'] := by
      simp [writeRow, unitRow, writeFields, hx, hwx]
    rw [e2]
    show writeRow header ++ (writeField u.path ++ ',' :: (writeField (printNat u.rss) ++ ',' :: writeField g)) ++ (t ++ ['\n']) = _
    rw [hwg, ← ht]
    simp
  · have hrow : Row row (writeFields row) := write_fields row (by simp [row])
    have hrne : writeFields row ≠ [] := by simp [row, writeFields]
    have hh : Row header (rowText header) ∧ rowText header ≠ [] := rowText_row header (by simp [header])
    have hl : Lines [header, row] (rowText header ++ '\n' :: writeFields row) :=
      .row header _ '\n' _ _ hh.1 hh.2 (by decide) (.last row _ hrow hrne)
    have e3 : writeRow header ++ writeFields row = rowText header ++ '\n' :: writeFields row := by
      simp [writeRow, rowText]
    have hrd : readRows (writeRow header ++ writeFields row) = [header, row] := by
      rw [e3]
      refine (c78_records _ _).2 (.inr ⟨?_, hl⟩)
      have : rowText header ++ '\n' :: writeFields row = 'f' :: ("ile,max_rss,time\n".toList ++ writeFields row) := rfl
      rw [this]; simp
    unfold load
    rw [hrd]
    simp only
    rw [readUnits_iff]
    refine ⟨by intro r hr; rw [List.mem_singleton] at hr; rw [hr]; rfl, .cons ?_ .nil⟩
    have c1 : column header row "file" = [u.path] := by
      simp only [header, row, column_cons]; simp [column]
    have c2 : column header row "max_rss" = [printNat u.rss] := by
      simp only [header, row, column_cons]; simp [column]
    have c3 : column header row "time" = [g] := by
      simp only [header, row, column_cons]; simp [column]
    exact ⟨c1, ⟨_, c2, hr, 10, [], [], printNat u.rss, rfl, .inl ⟨rfl, rfl⟩, .inl rfl, printNat_digits _⟩,
      .inr ⟨g, y, c3, hne, hy, rfl⟩⟩

/-! ## Examples -/

def exPrint (x : F32) : Text := if x = .nan then "NaN".toList else "12.5".toList
def exTime : F32 := .fin false 0
def exParse (s : Text) : Option F32 :=
  if s = "NaN".toList then some .nan else if s = "12.5".toList then some exTime else if s = "1".toList then some (.inf false) else none

/-- Non-vacuity: paths with delimiters, quotes and line endings, and units with and without times. -/
example :
    let us : List UnitProfile := [⟨"../a,\"b\".cpp".toList, 1234, some exTime⟩, ⟨"c\n.cpp".toList, 0, none⟩, ⟨[], 7, some .nan⟩]
    (∀ u ∈ us, u.rss < 2 ^ 64) ∧ GoodTimes exPrint exParse us ∧
    writeProfile exPrint us =
      "file,max_rss,time\n\"../a,\"\"b\"\".cpp\",1234,12.5\n\"c\n.cpp\",0,\n,7,NaN\n".toList ∧
    load exParse (writeProfile exPrint us) = some us := by
  intro us
  have h1 : ∀ u ∈ us, u.rss < 2 ^ 64 := by simp [us]
  have h2 : GoodTimes exPrint exParse us := by
    intro u hu x hx
    simp only [us, List.mem_cons, List.not_mem_nil, or_false] at hu
    rcases hu with rfl | rfl | rfl
    · simp only [Option.some.injEq] at hx; subst hx; decide +kernel
    · cases hx
    · simp only [Option.some.injEq] at hx; subst hx; decide +kernel
  exact ⟨h1, h2, by decide +kernel, c78_roundtrip exPrint exParse us h1 h2⟩

/-- Columns in another order, an unknown column, a hexadecimal number and no times. -/
example : readRows "max_rss,note,file\r\n0x1F,hello,a.cpp".toList =
    [["max_rss".toList, "note".toList, "file".toList], ["0x1F".toList, "hello".toList, "a.cpp".toList]] ∧
    (load exParse "max_rss,note,file\r\n0x1F,hello,a.cpp".toList).map (fun us => us.map fun u => (u.path, u.rss)) =
      some [("a.cpp".toList, 31)] := by
  decide +kernel

/-- Non-vacuity of the limit: `12.5` cut after `1`. -/
example : ∃ p, p <+: writeProfile exPrint [⟨"a.cpp".toList, 5, some exTime⟩] ∧
    load exParse p = some [⟨"a.cpp".toList, 5, some (.inf false)⟩] :=
  c78_cut_time_violated exPrint exParse ⟨"a.cpp".toList, 5, some exTime⟩ (by norm_num) exTime _ rfl (by decide +kernel) "1".toList
    (by decide +kernel) (by decide +kernel) (by decide +kernel)

end Verif.Build.ProfileCsv
